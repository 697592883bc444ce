import Verif.Spec.Env
import Verif.Proofs.Wording
import Verif.Proofs.AnySource
import Verif.Proofs.Callbacks
import Verif.Proofs.Checked
/-
The session against an arbitrary environment is, at every point, where a session of some configuration is (C125).
-/
namespace Verif.Env
open Spec AnySource
open Wording (returns_append story_snoc story_returns)
variable {L : IpLib} {E : Environment L} {T : Script L} {words : Hook → Reply} {f : Source} {N : Nat} {rest : List (SrcEv Bytes)}

/-! ### A script for the environment -/

open Classical in
theorem table {κ β : Type} [Inhabited β] (R : κ → Nat → β → Prop) (h : ∀ k n n' b b', R k n b → R k n' b' → b = b') :
    ∃ T : κ → β, ∀ k n b, R k n b → T k = b := by
  refine ⟨fun k => if h : ∃ b n, R k n b then h.choose else default, fun k n b hb => ?_⟩
  have he : ∃ b n, R k n b := ⟨b, n, hb⟩
  simp only [dif_pos he]
  exact h k _ _ _ _ he.choose_spec.choose_spec hb

theorem speak_keeps (t : Nat) (h : Hook) (a : Task.After L) (x : State L) : (speak E t h a x).trace = x.trace ∧
    (speak E t h a x).reader = x.reader ∧ (speak E t h a x).mail = x.mail ∧ (speak E t h a x).out = x.out := by
  unfold speak; split <;> exact ⟨rfl, rfl, rfl, rfl⟩

theorem dispatch_trace (t : Nat) (x : State L) (l : Bytes) : (dispatch E t x l).trace = x.trace := by
  unfold dispatch
  split <;> (try split) <;> (try split) <;> first | exact (speak_keeps _ _ _ _).1 | rfl

theorem resume_trace (x : State L) (a : Task.After L) : x.trace <+: (resume x a).trace := by
  cases a with
  | next => exact List.prefix_refl _
  | setMail m => exact List.prefix_refl _
  | handle m => exact List.prefix_append _ _

theorem step_trace (t : Nat) (x : State L) : x.trace <+: (step E t x).trace := by
  obtain ⟨pc, r, m, o, tr⟩ := x
  have snoc : ∀ (h : Hook) (a : Task.After L) (y : State L) (e : Ev L), y.trace = tr ++ [e] → tr <+: (speak E t h a y).trace := by
    intro h a y e hy
    rw [(speak_keeps t h a y).1, hy]
    exact List.prefix_append _ _
  cases pc with
  | send rp cs a =>
    cases cs with
    | nil =>
      simp only [step]
      split
      · exact List.prefix_refl _
      · exact (List.prefix_append tr [.reply rp]).trans (resume_trace ⟨.read [], r, m, o, tr ++ [.reply rp]⟩ a)
      · exact List.prefix_append _ _
    | cons c cs =>
      simp only [step]
      split
      · exact List.prefix_refl _
      · split
        · exact List.prefix_refl _
        · split
          · exact List.prefix_refl _
          · exact List.prefix_refl _
          · exact List.prefix_append _ _
  | read b =>
    simp only [step]
    split
    · exact List.prefix_refl _
    · split
      · split
        · rw [dispatch_trace]; exact List.prefix_append _ _
        · exact List.prefix_refl _
      · exact List.prefix_refl _
    · split <;> exact List.prefix_refl _
  | _ =>
    simp only [step]
    repeat' split
    all_goals first
      | exact List.prefix_refl _
      | exact List.prefix_append _ _
      | exact snoc _ _ _ _ rfl

theorem returns_step (t : Nat) (x : State L) : returns x.trace ≤ returns (step E t x).trace := Wording.returns_prefix (step_trace t x)

theorem returns_after (out : List Bytes) (n k : Nat) : returns (after E out n).trace ≤ returns (after E out (n + k)).trace := by
  induction k with
  | zero => exact Nat.le_refl _
  | succ k ih => exact Nat.le_trans ih (returns_step _ _)

theorem more {t t' : List (Ev L)} {e : Ev L} (he : isReturn e = true) (h : t' = t ++ [e]) : returns t < returns t' := by
  rw [h, returns_append]
  simp [returns, he]

theorem more_speak {t : List (Ev L)} {e : Ev L} (he : isReturn e = true) (n : Nat) (h : Hook) (a : Task.After L) {x : State L}
    (ht : x.trace = t ++ [e]) : returns t < returns (speak E n h a x).trace := more he ((speak_keeps n h a x).1.trans ht)

/-- A filter that has answered was the last to be called with this number. -/
theorem from_once {x : State L} {t : Nat} {g : Option (Email L)} {a : Decision × Option (Email L)} (hx : x.pc = .filterFrom g)
    (ha : E.filterFrom t = .ready a) : returns x.trace < returns (step E t x).trace := by
  obtain ⟨pc, r, m, o, tr⟩ := x
  dsimp only at hx
  subst hx
  simp only [step, ha]
  split
  · rename_i h; cases h
  · rename_i h; cases h
  · exact more_speak (e := .filterFrom _ _ _) rfl _ _ _ rfl
  · exact more (e := .filterFrom _ _ _) rfl rfl

theorem to_once {x : State L} {t : Nat} {to : Email L} {mi m' : MailMeta L} {a : Decision × Email L} (hx : x.pc = .filterTo to mi)
    (ha : E.filterTo t = (m', .ready a)) : returns x.trace < returns (step E t x).trace := by
  obtain ⟨pc, r, m, o, tr⟩ := x
  dsimp only at hx
  subst hx
  simp only [step, ha]
  split
  · rename_i h; cases h
  · rename_i h; cases h
  · exact more_speak (e := .filterTo _ _ _ _ _) rfl _ _ _ rfl
  · exact more (e := .filterTo _ _ _ _ _) rfl rfl

theorem data_once {x : State L} {t : Nat} {mi : MailMeta L} {a : Decision × MailMeta L} (hx : x.pc = .filterData mi)
    (ha : E.filterData t = .ready a) : returns x.trace < returns (step E t x).trace := by
  obtain ⟨pc, r, m, o, tr⟩ := x
  dsimp only at hx
  subst hx
  simp only [step, ha]
  split
  · rename_i h; cases h
  · rename_i h; cases h
  · exact more_speak (e := .filterData _ _ _) rfl _ _ _ rfl
  · exact more (e := .filterData _ _ _) rfl rfl

/-- The session is over. -/
def Ended : PC L → Prop
  | .over _ | .unwound => True
  | _ => False

theorem ended_step {x : State L} (t : Nat) (h : Ended x.pc) : step E t x = x := by
  obtain ⟨pc, r, m, o, tr⟩ := x
  cases pc <;> first | rfl | exact h.elim

/-- What can be the case once a mail handler that had seen `l` observations has wanted something, `k` callbacks having returned. -/
def Since (k l : Nat) (x : State L) : Prop :=
  k < returns x.trace ∨ Ended x.pc ∨ (returns x.trace = k ∧
    ((∃ h d, x.pc = .handle h d ∧ l < h.length) ∨ ∃ h d, x.pc = .polling h d ∧ l ≤ h.length))

theorem since_want {x : State L} {t : Nat} {h : List HObs} {d : DS} {w : Callbacks.Want} (hx : x.pc = .handle h d)
    (hw : E.handleMail t = .ready w) : Since (returns x.trace) h.length (step E t x) := by
  obtain ⟨pc, r, m, o, tr⟩ := x
  dsimp only at hx
  subst hx
  simp only [step, hw]
  cases w with
  | poll =>
    dsimp only
    split
    · exact .inr (.inr ⟨rfl, .inl ⟨_, _, rfl, by simp⟩⟩)
    · exact .inr (.inr ⟨rfl, .inr ⟨_, _, rfl, Nat.le_refl _⟩⟩)
  | complete =>
    dsimp only
    split
    · exact .inr (.inl trivial)
    · exact .inr (.inr ⟨rfl, .inl ⟨_, _, rfl, by simp⟩⟩)
  | done dec =>
    dsimp only
    split
    · left
      split
      · exact more_speak (e := .handled _) rfl _ _ _ rfl
      · exact more (e := .handled _) rfl rfl
    · exact .inr (.inl trivial)

theorem since_step {k l : Nat} {x : State L} (t : Nat) (h : Since k l x) : Since k l (step E t x) := by
  rcases h with h | h | ⟨h1, ⟨h, d, h2, h3⟩ | ⟨h, d, h2, h3⟩⟩
  · exact .inl (Nat.lt_of_lt_of_le h (returns_step t x))
  · rw [ended_step t h]; exact .inr (.inl h)
  · rcases hw : E.handleMail t with _ | w | _
    · obtain ⟨pc, r, m, o, tr⟩ := x
      dsimp only at h1 h2
      subst h2
      simp only [step, hw]
      exact .inr (.inr ⟨h1, .inl ⟨h, d, rfl, h3⟩⟩)
    · rcases since_want h2 hw with h4 | h4 | ⟨h4, ⟨h', d', h5, h6⟩ | ⟨h', d', h5, h6⟩⟩
      · exact .inl (h1 ▸ h4)
      · exact .inr (.inl h4)
      · exact .inr (.inr ⟨h4.trans h1, .inl ⟨h', d', h5, by omega⟩⟩)
      · exact .inr (.inr ⟨h4.trans h1, .inr ⟨h', d', h5, by omega⟩⟩)
    · obtain ⟨pc, r, m, o, tr⟩ := x
      dsimp only at h1 h2
      subst h2
      simp only [step, hw]
      exact .inr (.inl trivial)
  · obtain ⟨pc, r, m, o, tr⟩ := x
    dsimp only at h1 h2
    subst h2
    simp only [step]
    rcases d.turn E.source with ⟨_ | a, e⟩
    · exact .inr (.inr ⟨h1, .inr ⟨_, _, rfl, h3⟩⟩)
    · exact .inr (.inr ⟨h1, .inl ⟨_, _, rfl, by simp; omega⟩⟩)

theorem since_after (out : List Bytes) (n k : Nat) {h : List HObs} {d : DS} {w : Callbacks.Want}
    (hx : (after E out n).pc = .handle h d) (hw : E.handleMail (n + 1) = .ready w) :
    Since (returns (after E out n).trace) h.length (after E out (n + 1 + k)) := by
  induction k with
  | zero => exact since_want hx hw
  | succ k ih => exact since_step _ ih

instance : Inhabited (Decision × Option (Email L)) := ⟨.accept, none⟩
instance : Inhabited (MailMeta L × Decision × Email L) := ⟨⟨none, []⟩, .accept, ⟨[], none⟩⟩
instance : Inhabited (Decision × MailMeta L) := ⟨.accept, ⟨none, []⟩⟩
instance : Inhabited Callbacks.Want := ⟨.poll⟩

/-- The script says what the environment answers in the next step. -/
structure Fits (E : Environment L) (T : Script L) (t : Nat) (x : State L) : Prop where
  from_ : ∀ g a, x.pc = .filterFrom g → E.filterFrom t = .ready a → T.from_ (returns x.trace) = a
  to : ∀ to mi m' a, x.pc = .filterTo to mi → E.filterTo t = (m', .ready a) → T.to (returns x.trace) = (m', a)
  data : ∀ mi a, x.pc = .filterData mi → E.filterData t = .ready a → T.data (returns x.trace) = a
  want : ∀ h d w, x.pc = .handle h d → E.handleMail t = .ready w → T.want (returns x.trace) h = w

theorem fits_exists (E : Environment L) (out : List Bytes) : ∃ T : Script L, ∀ n, Fits E T (n + 1) (after E out n) := by
  have once : ∀ {n n' : Nat}, returns (after E out n).trace < returns (after E out (n + 1)).trace →
      returns (after E out n').trace < returns (after E out (n' + 1)).trace →
      returns (after E out n).trace = returns (after E out n').trace → n = n' := by
    intro n n' h h' he
    rcases Nat.lt_trichotomy n n' with hl | hl | hl
    · obtain ⟨j, rfl⟩ := Nat.exists_eq_add_of_le hl
      have := returns_after (E := E) out (n + 1) j
      rw [show n.succ + j = n + 1 + j from rfl] at *
      omega
    · exact hl
    · obtain ⟨j, rfl⟩ := Nat.exists_eq_add_of_le hl
      have := returns_after (E := E) out (n' + 1) j
      rw [show n'.succ + j = n' + 1 + j from rfl] at *
      omega
  obtain ⟨t1, h1⟩ := table (κ := Nat) (fun k n (a : Decision × Option (Email L)) =>
    returns (after E out n).trace = k ∧ ∃ g, (after E out n).pc = .filterFrom g ∧ E.filterFrom (n + 1) = .ready a) (by
      rintro k n n' a a' ⟨rfl, g, h1, h2⟩ ⟨h3, g', h4, h5⟩
      have := once (from_once h1 h2) (from_once h4 h5) h3.symm
      subst this
      rw [h2] at h5
      cases h5
      rfl)
  obtain ⟨t2, h2⟩ := table (κ := Nat) (fun k n (a : MailMeta L × Decision × Email L) =>
    returns (after E out n).trace = k ∧ ∃ to mi, (after E out n).pc = .filterTo to mi ∧ E.filterTo (n + 1) = (a.1, .ready a.2)) (by
      rintro k n n' a a' ⟨rfl, g, _, h1, h2⟩ ⟨h3, g', _, h4, h5⟩
      have := once (to_once h1 h2) (to_once h4 h5) h3.symm
      subst this
      rw [h2] at h5
      cases a; cases a'
      cases h5
      rfl)
  obtain ⟨t3, h3⟩ := table (κ := Nat) (fun k n (a : Decision × MailMeta L) =>
    returns (after E out n).trace = k ∧ ∃ mi, (after E out n).pc = .filterData mi ∧ E.filterData (n + 1) = .ready a) (by
      rintro k n n' a a' ⟨rfl, g, h1, h2⟩ ⟨h3, g', h4, h5⟩
      have := once (data_once h1 h2) (data_once h4 h5) h3.symm
      subst this
      rw [h2] at h5
      cases h5
      rfl)
  obtain ⟨t4, h4⟩ := table (κ := Nat × List HObs) (fun k n (a : Callbacks.Want) =>
    returns (after E out n).trace = k.1 ∧ ∃ d, (after E out n).pc = .handle k.2 d ∧ E.handleMail (n + 1) = .ready a) (by
      rintro ⟨k, h⟩ n n' a a' ⟨h1, d, h2, h3⟩ ⟨h4, d', h5, h6⟩
      dsimp only at h1 h2 h4 h5
      have key : ∀ {n n' d d' a a'}, returns (after E out n).trace = k → (after E out n).pc = .handle h d → E.handleMail (n + 1) = .ready a →
          returns (after E out n').trace = k → (after E out n').pc = .handle h d' → E.handleMail (n' + 1) = .ready a' → ¬ n < n' := by
        intro n n' d d' a a' h1 h2 h3 h4 h5 h6 hlt
        obtain ⟨j, rfl⟩ := Nat.exists_eq_add_of_le hlt
        rcases since_after (E := E) out n j h2 h3 with hh | hh | ⟨-, ⟨h', e, hh, hl⟩ | ⟨h', e, hh, hl⟩⟩
        · rw [show n.succ + j = n + 1 + j from rfl] at h4; omega
        · rw [show n.succ + j = n + 1 + j from rfl] at h5; rw [h5] at hh; exact hh
        · rw [show n.succ + j = n + 1 + j from rfl] at h5; rw [h5] at hh; cases hh; omega
        · rw [show n.succ + j = n + 1 + j from rfl] at h5; rw [h5] at hh; cases hh
      have : n = n' := by
        have a1 := key h1 h2 h3 h4 h5 h6
        have a2 := key h4 h5 h6 h1 h2 h3
        omega
      subst this
      rw [h3] at h6
      cases h6
      rfl)
  exact ⟨⟨t1, t2, t3, fun k h => t4 (k, h)⟩, fun n => ⟨fun g a hx ha => h1 _ n a ⟨rfl, g, hx, ha⟩,
    fun to mi m' a hx ha => h2 _ n (m', a) ⟨rfl, to, mi, hx, ha⟩, fun mi a hx ha => h3 _ n a ⟨rfl, mi, hx, ha⟩,
    fun h d w hx ha => h4 (_, h) n w ⟨rfl, d, hx, ha⟩⟩⟩

/-! ### The two sessions -/

/-- What is on record in both sessions; the other writer never fails. -/
structure Book (E : Environment L) (words : Hook → Reply) (tr : List (Ev L)) (w : World L Nat Unit) : Prop where
  plan : w.writer.plan = []
  cfg : w.cfg = returns w.trace
  story : Story (maySay E) words tr w.trace

/-- The places that correspond to each other, where the session has the connection and the open transaction for itself. -/
inductive Live (E : Environment L) (words : Hook → Reply) : PC L → Task.PC L Nat Unit → Prop
  | read (b : Bytes) : Live E words (.read b) (.read b)
  | refuse (r : Refusal) (left : List Bytes) (a : Task.After L) : Live E words (.send (r.code, r.msg) left a) (.send (r.code, r.msg) left a)
  | hook (h : Hook) (r : Reply) (left : List Bytes) (a : Task.After L) : maySay E h r →
      Live E words (.send r left a) (Task.reply (words h) a)
  | newMail (g : Option (Email L)) : Live E words (.newMail g) (.newMail g)
  | filterFrom (g : Option (Email L)) : Live E words (.filterFrom g) (.filterFrom g)
  | filterData (m : MailMeta L) : Live E words (.filterData m) (.filterData m)

/-- Where a panic of the environment leaves the other session. -/
def Awaits : Task.PC L Nat Unit → Prop
  | .read _ | .over _ => False
  | _ => True

/-- States that correspond to each other. -/
inductive Rel (E : Environment L) (T : Script L) (words : Hook → Reply) (N : Nat) (rest : List (SrcEv Bytes)) :
    State L → Task.State L Nat Unit → Prop
  | live {p q r m o tr w} : Live E words p q → RelR E.source N rest r w.reader → m = w.mail → Book E words tr w →
      Rel E T words N rest ⟨p, r, m, o, tr⟩ (q, w)
  | to {t mi r m o tr w} : RelR E.source N rest r w.reader → Book E words tr w →
      Rel E T words N rest ⟨.filterTo t mi, r, m, o, tr⟩ (.filterTo t mi, w)
  | handle {h d d' r m o tr w} : RelD E.source N rest d d' → m = w.mail → Book E words tr w →
      Rel E T words N rest ⟨.handle h d, r, m, o, tr⟩ (.handle (T.act w.cfg) h d', w)
  | polling {h d d0 d' r m o tr w} : T.act w.cfg h = .poll → d0.state ≠ .finished → d0.pollNext = DStream.pollLoop d' →
      RelD E.source N rest d d' → m = w.mail → Book E words tr w →
      Rel E T words N rest ⟨.polling h d, r, m, o, tr⟩ (.handle (T.act w.cfg) h d0, w)
  | over {e r m o tr w} : e ≠ .err → m = w.mail → Book E words tr w → Rel E T words N rest ⟨.over e, r, m, o, tr⟩ (.over e, w)
  | failed {rp left a r m o tr w} : m = w.mail → Book E words tr w →
      Rel E T words N rest ⟨.over .err, r, m, o, tr ++ [.writeError]⟩ (.send rp left a, w)
  | unsendable {rp left a r m o tr w} : m = w.mail → Book E words tr w →
      Rel E T words N rest ⟨.over (.panic .buildUnwrap), r, m, o, tr⟩ (.send rp left a, w)
  | unwound {q r m o tr w} : Awaits q → Book E words tr w → Rel E T words N rest ⟨.unwound, r, m, o, tr⟩ (q, w)

theorem awaits_reply (r : Reply) (a : Task.After L) : Awaits (Task.reply r a : Task.PC L Nat Unit) := by
  obtain ⟨cs, _, hr⟩ := Task.reply_cases (S := Nat) (U := Unit) r a
  rw [hr]; trivial

theorem reply_send (r : Reply) (a : Task.After L) : ∃ cs, byteChunks r.2 ReplyLine.maxLen = some cs ∧ (reply r a : PC L) = .send r cs a := by
  obtain ⟨cs, hcs, _⟩ := Task.reply_cases (L := L) (S := Nat) (U := Unit) r a
  exact ⟨cs, hcs, by simp [reply, hcs]⟩

theorem rel_speak (t : Nat) (h : Hook) (a : Task.After L) {x : State L} {w : World L Nat Unit}
    (hr : RelR E.source N rest x.reader w.reader) (hm : x.mail = w.mail) (hb : Book E words x.trace w) :
    Rel E T words N rest (speak E t h a x) (Task.reply (words h) a, w) := by
  obtain ⟨pc, r, m, o, tr⟩ := x
  unfold speak
  rcases hs : E.say h t with _ | rp
  · exact .unwound (awaits_reply _ _) hb
  · obtain ⟨cs, _, hrp⟩ := reply_send (L := L) rp a
    dsimp only
    rw [hrp]
    exact .live (.hook h rp cs a ⟨t, hs⟩) hr hm hb

theorem rel_refuse (e : Refusal) (a : Task.After L) {r : Reader} {m : Option (MailMeta L)} {o : List Bytes} {tr : List (Ev L)}
    {w : World L Nat Unit} (hr : RelR E.source N rest r w.reader) (hm : m = w.mail) (hb : Book E words tr w) :
    Rel E T words N rest ⟨reply (e.code, e.msg) a, r, m, o, tr⟩ (Task.reply (e.code, e.msg) a, w) := by
  obtain ⟨cs, hcs, hrp⟩ := reply_send (L := L) (e.code, e.msg) a
  obtain ⟨cs', hcs', hr'⟩ := Task.reply_cases (S := Nat) (U := Unit) (e.code, e.msg) a
  rw [hcs] at hcs'
  cases hcs'
  rw [hrp, hr']
  exact .live (.refuse e cs a) hr hm hb

theorem rel_dispatch (t : Nat) (l : Bytes) {x : State L} {w : World L Nat Unit}
    (hr : RelR E.source N rest x.reader w.reader) (hm : x.mail = w.mail) (hb : Book E words x.trace w) :
    Rel E T words N rest (dispatch E t x l) (Task.dispatch (played T words) w l) := by
  obtain ⟨pc, r, m, o, tr⟩ := x
  dsimp only at hr hm hb
  unfold dispatch Task.dispatch
  subst hm
  have hnone : Book E words tr { w with mail := none } := ⟨hb.1, hb.2, hb.3⟩
  cases (Command.parse l : Except ParseErr (Command L)) with
  | error e => exact rel_speak t .commandUnrecognized _ hr rfl hb
  | ok c =>
    cases c
    case mail g p =>
      dsimp only
      split
      · exact rel_speak t .alreadyInMail _ hr rfl hb
      · exact .live (.newMail _) hr rfl hb
    case rcpt to p =>
      dsimp only
      cases hm : w.mail with
      | some m => exact .to hr hb
      | none => exact rel_speak t .rcptBeforeMail _ (x := ⟨pc, r, none, o, tr⟩) hr hm.symm hb
    case data =>
      dsimp only
      cases hm : w.mail with
      | some m =>
        dsimp only
        split
        · exact rel_speak t .dataBeforeRcpt _ (x := ⟨pc, r, none, o, tr⟩) (w := { w with mail := none }) hr rfl hnone
        · exact .live (.filterData _) (w := { w with mail := none }) hr rfl hnone
      | none => exact rel_speak t .dataBeforeMail _ (x := ⟨pc, r, none, o, tr⟩) hr hm.symm hb
    all_goals exact rel_speak t .commandUnimplemented _ hr rfl hb

theorem rel_resume (a : Task.After L) {x : State L} {w : World L Nat Unit}
    (hr : RelR E.source N rest x.reader w.reader) (hm : x.mail = w.mail) (hb : Book E words x.trace w) :
    Rel E T words N rest (resume x a) (Task.resume (played T words) w a) := by
  obtain ⟨pc, r, m, o, tr⟩ := x
  cases a with
  | next => exact .live (.read _) hr hm hb
  | setMail m => exact .live (.read _) (w := { w with mail := m }) hr rfl ⟨hb.1, hb.2, hb.3⟩
  | handle m =>
    refine .handle (w := { w with trace := w.trace ++ [.handleMail m] }) ⟨hr, rfl, rfl⟩ hm ⟨hb.1, ?_, story_snoc hb.3 (.same _ rfl)⟩
    show w.cfg = returns (w.trace ++ [_])
    rw [returns_append, hb.2]; rfl

theorem book_reply {tr : List (Ev L)} {w : World L Nat Unit} (hb : Book E words tr w) {r r' : Reply} (hr : Reworded (maySay E) words r r')
    (wr : BSink) (hp : wr.plan = []) : Book E words (tr ++ [.reply r]) { w with writer := wr, trace := w.trace ++ [.reply r'] } :=
  ⟨hp, by show w.cfg = returns (w.trace ++ _); rw [returns_append, hb.2]; rfl, story_snoc hb.3 (.reply _ _ hr)⟩

theorem book_event {tr : List (Ev L)} {w : World L Nat Unit} (hb : Book E words tr w) {e : Ev L} (he : isReturn e = true)
    (hn : isDeed e = true) (m : Option (MailMeta L)) (rd : Prep Bytes) :
    Book E words (tr ++ [e]) { w with cfg := w.cfg + 1, conn := (), mail := m, reader := rd, trace := w.trace ++ [e] } :=
  ⟨hb.1, by
    show w.cfg + 1 = returns (w.trace ++ [e])
    rw [returns_append, hb.2]; simp [returns, he], story_snoc hb.3 (.same _ hn)⟩

theorem flush_quiet {w : World L Nat Unit} (h : w.writer.plan = []) : Server.flush w = (.ok (), w) := by
  unfold Server.flush; rw [h]

theorem writeLine_quiet (l : ReplyLine) {w : World L Nat Unit} (h : w.writer.plan = []) :
    Server.writeLine l w = (.ok (), { w with writer := ⟨w.writer.out ++ [l.sendTo], []⟩ }) := by
  unfold Server.writeLine
  have h0 : ¬ l.byteLen < l.sendTo.length := by rw [c19_byte_len]; omega
  rw [if_neg h0]
  simp only [BSink.send, h, if_true]

/-- A reply that can be sent is sent if the writer does not fail. -/
theorem send_whole {C : Config L Nat Unit} {r : Reply} (hr : Sendable r) (a : Task.After L) (w : World L Nat Unit) (hw : w.writer.plan = []) :
    ∃ k out, Task.steps C k (Task.reply r a, w) = Task.resume C { w with writer := ⟨out, []⟩, trace := w.trace ++ [.reply r] } a := by
  obtain ⟨k, _, hk⟩ := Task.send_reply (C := C) r a w
  obtain ⟨cs, h1, h2, _⟩ := Server.sendable_chunks hr
  obtain ⟨out, ho⟩ := Server.sendChunks_quiet h2 w hw
  refine ⟨k, out, ?_⟩
  rw [hk]
  unfold Server.sendReply
  simp only [h1]
  rw [SM.bind_ok ho]
  rfl

theorem read_input (t : Nat) (b : Bytes) (r : Reader) (m : Option (MailMeta L)) (o : List Bytes) (tr : List (Ev L)) :
    (step E t ⟨.read b, r, m, o, tr⟩).input.polls = (r.poll E.source).2.polls := by
  have hs : ∀ h a (x : State L), (speak E t h a x).input.polls = x.reader.polls := by
    intro h a x
    unfold speak
    split
    · obtain ⟨cs, _, hr⟩ := reply_send (L := L) _ a
      rw [hr]; rfl
    · rfl
  have hd : ∀ (x : State L) l, (dispatch E t x l).input.polls = x.reader.polls := by
    intro x l
    unfold dispatch
    split <;> (try split) <;> (try split) <;> first | exact hs _ _ _ | rfl
  simp only [step]
  rcases r.poll E.source with ⟨(_ | pkt) | _, r'⟩
  · dsimp only
    cases h : r'.prepend b with
    | none => rfl
    | some r'' => exact prepend_polls h
  · dsimp only
    cases findCrlf (b ++ pkt) with
    | none => rfl
    | some pos =>
      dsimp only
      cases h : r'.prepend ((b ++ pkt).drop (pos + 2)) with
      | none => rfl
      | some r'' => rw [hd]; exact prepend_polls h
  · rfl

theorem rel_read (ho : OpenFor E.source N) (t : Nat) (b : Bytes) {r : Reader} {m : Option (MailMeta L)} {o : List Bytes} {tr : List (Ev L)}
    {w : World L Nat Unit} (hr : RelR E.source N rest r w.reader) (hm : m = w.mail) (hb : Book E words tr w)
    (hl : Like E.source N rest (r.poll E.source).2.polls) :
    Rel E T words N rest (step E t ⟨.read b, r, m, o, tr⟩) (Task.step (played T words) (.read b, w)) := by
  obtain ⟨h1, h2⟩ := relR_poll ho hr hl
  have h3 := poll_pre E.source r
  simp only [step, Task.step]
  rcases hp : w.reader.pollNext with ⟨a, q'⟩
  rcases hf : r.poll E.source with ⟨a', r'⟩
  rw [hp, hf] at h1 h2
  rw [hf] at h3
  dsimp only at h1 h2 h3
  subst h1
  have hpre := relR_prepend h2
  have hb' : ∀ q, Book E words tr { w with reader := q } := fun q => ⟨hb.1, hb.2, hb.3⟩
  rcases a with (_ | pkt) | _
  · dsimp only
    have := hpre b
    revert this
    rcases r'.prepend b with _ | r'' <;> rcases q'.prepend b with _ | q'' <;> intro this
    · exact .over (by simp) hm hb
    · exact this.elim
    · exact this.elim
    · exact .over (w := { w with reader := q'' }) (by simp) hm (hb' _)
  · dsimp only
    cases findCrlf (b ++ pkt) with
    | none => exact .live (.read _) (w := { w with reader := q' }) h2 hm (hb' _)
    | some pos =>
      dsimp only
      have := hpre ((b ++ pkt).drop (pos + 2))
      revert this
      rcases r'.prepend ((b ++ pkt).drop (pos + 2)) with _ | r'' <;> rcases q'.prepend ((b ++ pkt).drop (pos + 2)) with _ | q'' <;>
        intro this
      · exact .over (by simp) hm hb
      · exact this.elim
      · exact this.elim
      · refine rel_dispatch t _ (w := { w with reader := q'', trace := w.trace ++ [.line _] }) this.1 hm ⟨hb.1, ?_, story_snoc hb.3 (.same _ rfl)⟩
        show w.cfg = returns (w.trace ++ [_])
        rw [returns_append, hb.2]; rfl
  · exact .live (.read _) (w := { w with reader := q' }) h2 hm (hb' _)

theorem act_poll {k : Nat} {h : List HObs} (hw : T.want k h = .poll) : T.act k h = .poll := by unfold Script.act; rw [hw]
theorem act_complete {k : Nat} {h : List HObs} (hw : T.want k h = .complete) : T.act k h = .complete := by unfold Script.act; rw [hw]
theorem act_done {k : Nat} {h : List HObs} {d : Decision} (hw : T.want k h = .done d) : T.act k h = .done d (k + 1) () := by
  unfold Script.act; rw [hw]

/-- A step against the environment is some steps, perhaps none, of the session of the script. -/
theorem rel_step (ho : OpenFor E.source N) (hwords : ∀ h, Sendable (words h)) {t : Nat} {x : State L} {y : Task.State L Nat Unit}
    (hr : Rel E T words N rest x y) (hT : Fits E T t x) (hl : Like E.source N rest (listened (step E t x))) :
    ∃ k, Rel E T words N rest (step E t x) (Task.steps (played T words) k y) := by
  cases hr with
  | @live p q r m o tr w hp hr hm hb =>
    cases hp with
    | read b =>
      refine ⟨1, ?_⟩
      rw [Task.steps_one]
      refine rel_read ho t b hr hm hb ?_
      rw [listened, read_input] at hl
      exact hl
    | refuse e left a =>
      cases left with
      | nil =>
        simp only [step]
        rcases hw : E.write t with _ | _ | _
        · exact ⟨0, .live (.refuse e [] a) hr hm hb⟩
        · refine ⟨1, ?_⟩
          rw [Task.steps_one]
          simp only [Task.step, flush_quiet hb.plan]
          exact rel_resume a (w := { w with trace := w.trace ++ [.reply _] }) hr hm (book_reply hb (.refusal e) w.writer hb.plan)
        · exact ⟨0, .failed hm hb⟩
      | cons c cs =>
        simp only [step]
        cases hbl : ReplyLine.build e.code (if cs.isEmpty then .yes else .no) c with
        | error z =>
          refine ⟨1, ?_⟩
          rw [Task.steps_one]
          simp only [Task.step, hbl]
          exact .over (by simp) hm hb
        | ok l =>
          have h0 : ¬ l.byteLen < l.sendTo.length := by rw [c19_byte_len]; omega
          simp only [if_neg h0]
          rcases hw : E.write t with _ | _ | _
          · exact ⟨0, .live (.refuse e _ a) hr hm hb⟩
          · refine ⟨1, ?_⟩
            rw [Task.steps_one]
            simp only [Task.step, hbl, writeLine_quiet l hb.plan]
            exact .live (.refuse e cs a) (w := { w with writer := _ }) hr hm ⟨rfl, hb.2, hb.3⟩
          · exact ⟨0, .failed hm hb⟩
    | hook h rp left a hs =>
      obtain ⟨cs', _, hr'⟩ := Task.reply_cases (S := Nat) (U := Unit) (words h) a
      cases left with
      | nil =>
        simp only [step]
        rcases hw : E.write t with _ | _ | _
        · exact ⟨0, .live (.hook h rp [] a hs) hr hm hb⟩
        · obtain ⟨k, out, hk⟩ := send_whole (C := played T words) (hwords h) a w hb.plan
          refine ⟨k, ?_⟩
          rw [hk]
          exact rel_resume a (w := { w with writer := ⟨out, []⟩, trace := w.trace ++ [.reply _] }) hr hm (book_reply hb (.said h rp hs) ⟨out, []⟩ rfl)
        · refine ⟨0, ?_⟩
          rw [hr']
          exact .failed hm hb
      | cons c cs =>
        simp only [step]
        refine ⟨0, ?_⟩
        dsimp only [Task.steps]
        cases hbl : ReplyLine.build rp.1 (if cs.isEmpty then .yes else .no) c with
        | error z => rw [hr']; exact .unsendable hm hb
        | ok l =>
          have h0 : ¬ l.byteLen < l.sendTo.length := by rw [c19_byte_len]; omega
          simp only [if_neg h0]
          rcases hw : E.write t with _ | _ | _
          · exact .live (.hook h rp _ a hs) hr hm hb
          · exact .live (.hook h rp cs a hs) hr hm hb
          · rw [hr']; exact .failed hm hb
    | newMail g =>
      simp only [step]
      rcases hw : E.newMail t with _ | z | _
      · exact ⟨0, .live (.newMail g) hr hm hb⟩
      · refine ⟨1, ?_⟩
        rw [Task.steps_one]
        refine .live (.filterFrom g) (w := { w with cfg := w.cfg + 1, trace := w.trace ++ [.newMail] }) hr hm ?_
        exact book_event hb (e := .newMail) rfl rfl w.mail w.reader
      · exact ⟨0, .unwound trivial hb⟩
    | filterFrom g =>
      simp only [step]
      rcases hw : E.filterFrom t with _ | ⟨d, g'⟩ | _
      · exact ⟨0, .live (.filterFrom g) hr hm hb⟩
      · have h1 := hT.from_ g _ rfl hw
        dsimp only at h1
        rw [story_returns hb.story, ← hb.cfg] at h1
        refine ⟨1, ?_⟩
        rw [Task.steps_one]
        simp only [Task.step, played, h1]
        cases d with
        | accept => exact rel_speak t .mailOkay _ hr hm (book_event hb rfl rfl w.mail w.reader)
        | reject e => exact rel_refuse e _ hr hm (book_event hb rfl rfl w.mail w.reader)
      · exact ⟨0, .unwound trivial hb⟩
    | filterData mi =>
      simp only [step]
      rcases hw : E.filterData t with _ | ⟨d, m'⟩ | _
      · exact ⟨0, .live (.filterData mi) hr hm hb⟩
      · have h1 := hT.data mi _ rfl hw
        dsimp only at h1
        rw [story_returns hb.story, ← hb.cfg] at h1
        refine ⟨1, ?_⟩
        rw [Task.steps_one]
        simp only [Task.step, played, h1]
        cases d with
        | accept => exact rel_speak t .dataOkay _ hr hm (book_event hb rfl rfl w.mail w.reader)
        | reject e => exact rel_refuse e _ hr hm (book_event hb rfl rfl w.mail w.reader)
      · exact ⟨0, .unwound trivial hb⟩
  | @to to mi r m o tr w hr hb =>
    simp only [step]
    rcases hw : E.filterTo t with ⟨m', _ | ⟨d, to'⟩ | _⟩
    · exact ⟨0, .to hr hb⟩
    · have h1 := hT.to to mi _ _ rfl hw
      dsimp only at h1
      rw [story_returns hb.story, ← hb.cfg] at h1
      refine ⟨1, ?_⟩
      rw [Task.steps_one]
      simp only [Task.step, played, h1]
      cases d with
      | accept => exact rel_speak t .rcptOkay _ hr rfl (book_event hb rfl rfl _ w.reader)
      | reject e => exact rel_refuse e _ hr rfl (book_event hb rfl rfl _ w.reader)
    · exact ⟨0, .unwound trivial hb⟩
  | @handle h d d' r m o tr w hd hm hb =>
    simp only [step]
    rcases hw : E.handleMail t with _ | want | _
    · exact ⟨0, .handle hd hm hb⟩
    · have h1 := hT.want h d want rfl hw
      dsimp only at h1
      rw [story_returns hb.story, ← hb.cfg] at h1
      cases want with
      | poll =>
        dsimp only
        by_cases hs : d.state = .finished
        · rw [if_pos hs]
          refine ⟨1, ?_⟩
          rw [Task.steps_one]
          have : d'.pollNext = (.ready none, d') := by unfold DStream.pollNext; rw [hd.state, if_pos hs]
          simp only [Task.step, act_poll h1, this]
          exact .handle hd hm hb
        · rw [if_neg hs]
          refine ⟨0, .polling (act_poll h1) (by rw [hd.state]; exact hs) ?_ hd hm hb⟩
          unfold DStream.pollNext; rw [hd.state, if_neg hs]
      | complete =>
        dsimp only
        refine ⟨1, ?_⟩
        rw [Task.steps_one]
        simp only [Task.step, act_complete h1]
        have := complete_rel hd
        revert this
        rcases d.complete with p | ⟨b, e⟩ <;> rcases d'.complete with p' | ⟨b', e'⟩ <;> intro this
        · dsimp only at this ⊢; subst this; exact .over (by simp) hm hb
        · exact this.elim
        · exact this.elim
        · obtain ⟨rfl, h2, -⟩ := this
          exact .handle h2 hm hb
      | done dec =>
        dsimp only
        refine ⟨1, ?_⟩
        rw [Task.steps_one]
        simp only [Task.step, act_done h1]
        by_cases hs : d.state = .completed
        · rw [if_pos hs, if_pos (by unfold DStream.wasCompleted; rw [hd.state, hs]; rfl)]
          cases dec with
          | accept => exact rel_speak t .mailAccepted _ hd.reader hm (book_event hb rfl rfl w.mail _)
          | reject e => exact rel_refuse e _ hd.reader hm (book_event hb rfl rfl w.mail _)
        · rw [if_neg hs, if_neg (by unfold DStream.wasCompleted; rw [hd.state]; simpa using hs)]
          exact .over (by simp) hm hb
    · exact ⟨0, .unwound trivial hb⟩
  | @polling h d d0 d' r m o tr w ha hs hp hd hm hb =>
    simp only [step] at hl ⊢
    have hl' : Like E.source N rest (d.turn E.source).2.reader.polls := by
      revert hl
      rcases d.turn E.source with ⟨_ | a, e⟩ <;> exact id
    have := turn_rel ho hd hl'
    rcases hf : d.turn E.source with ⟨_ | a, e⟩
    · rw [hf] at this
      obtain ⟨e', ⟨h1, -⟩, h2⟩ := this
      exact ⟨0, .polling ha hs (hp.trans h1) h2 hm hb⟩
    · rw [hf] at this
      obtain ⟨h1, h2⟩ := this
      refine ⟨1, ?_⟩
      rw [Task.steps_one]
      simp only [Task.step, ha, hp, h1]
      exact .handle h2 hm hb
  | over he hm hb => exact ⟨0, .over he hm hb⟩
  | failed hm hb => exact ⟨0, .failed hm hb⟩
  | unsendable hm hb => exact ⟨0, .unsendable hm hb⟩
  | unwound hq hb => exact ⟨0, .unwound hq hb⟩

/-! ### Polls of the connection -/

theorem speak_listened (t : Nat) (h : Hook) (a : Task.After L) (x : State L) : listened (speak E t h a x) = x.reader.polls := by
  unfold speak
  split
  · obtain ⟨cs, _, hr⟩ := reply_send (L := L) _ a
    rw [hr]; rfl
  · rfl

theorem refuse_listened (rp : Reply) (a : Task.After L) (r : Reader) (m : Option (MailMeta L)) (o : List Bytes) (tr : List (Ev L)) :
    listened ⟨reply rp a, r, m, o, tr⟩ = r.polls := by
  obtain ⟨cs, _, hr⟩ := reply_send (L := L) rp a
  rw [hr]; rfl

theorem step_listened (t : Nat) (x : State L) : listened x ≤ listened (step E t x) ∧ listened (step E t x) ≤ listened x + 1 := by
  obtain ⟨pc, r, m, o, tr⟩ := x
  have same : ∀ {k l : Nat}, l = k → k ≤ l ∧ l ≤ k + 1 := by intro k l h; omega
  cases pc with
  | read b => rw [listened, listened, read_input]; exact poll_polls r
  | send rp cs a =>
    cases cs with
    | nil =>
      simp only [step]
      split
      · exact same rfl
      · cases a <;> exact same rfl
      · exact same rfl
    | cons c cs =>
      simp only [step]
      split
      · exact same rfl
      · split
        · exact same rfl
        · split <;> exact same rfl
  | polling h d =>
    simp only [step]
    have h1 := turn_polls (f := E.source) d
    have h2 := poll_polls (f := E.source) d.reader
    rcases hd : d.turn E.source with ⟨_ | a, e⟩ <;> rw [hd] at h1 <;> dsimp only [listened, State.input] at h1 ⊢ <;>
      rcases h1 with h1 | h1 <;> rw [h1] <;> omega
  | handle h d =>
    simp only [step]
    split
    · exact same rfl
    · exact same rfl
    · split <;> exact same rfl
    · split
      · exact same rfl
      · rename_i hc
        exact same (complete_polls hc)
    · split
      · split
        · exact same (speak_listened ..)
        · exact same (refuse_listened ..)
      · exact same rfl
  | _ =>
    simp only [step]
    repeat' split
    all_goals first
      | exact same rfl
      | exact same (speak_listened ..)
      | exact same (refuse_listened ..)

theorem after_listened (out : List Bytes) {m n : Nat} (h : m ≤ n) : listened (after E out m) ≤ listened (after E out n) := by
  induction n with
  | zero => rw [show m = 0 by omega]; exact Nat.le_refl _
  | succ n ih =>
    rcases Nat.lt_or_ge n m with hm | hm
    · rw [show m = n + 1 by omega]; exact Nat.le_refl _
    · exact Nat.le_trans (ih hm) (step_listened _ _).1

/-! ### The two sessions, at every point -/

theorem rel_init (hout : List Bytes) : Rel E T words N rest (init E hout) (Task.init (played T words) (heard E.source 0 N ++ rest) ⟨[], []⟩ 0 ()) :=
  rel_speak 0 .welcomeBanner _ (w := Server.start (heard E.source 0 N ++ rest) ⟨[], []⟩ 0 ()) ⟨rfl, rfl⟩ rfl ⟨rfl, rfl, .nil⟩

theorem rel_after (ho : OpenFor E.source N) (hwords : ∀ h, Sendable (words h)) (out : List Bytes)
    (hT : ∀ n, Fits E T (n + 1) (after E out n)) (n : Nat) (hl : Like E.source N rest (listened (after E out n))) :
    ∃ k, Rel E T words N rest (after E out n) (Task.after (played T words) (heard E.source 0 N ++ rest) ⟨[], []⟩ 0 () k) := by
  induction n with
  | zero => exact ⟨0, rel_init out⟩
  | succ n ih =>
    obtain ⟨k, hk⟩ := ih (hl.mono (after_listened out (Nat.le_succ n)))
    obtain ⟨j, hj⟩ := rel_step ho hwords hk (hT n) hl
    refine ⟨k + j, ?_⟩
    unfold Task.after at hj ⊢
    rw [Task.steps_add]
    exact hj

/-- The answers of a connection that stays at its end once it has reported it. -/
theorem split_heard {f : Source} {k : Nat} (hs : StaysEnded f k) :
    ∃ N, N ≤ k ∧ OpenFor f N ∧ Like f N [] k ∧ heard f 0 k = heard f 0 N ∧ (N = k ∨ f N = .ready none) := by
  induction k with
  | zero => exact ⟨0, Nat.le_refl _, fun i hi => by omega, .inl (Nat.le_refl _), rfl, .inl rfl⟩
  | succ k ih =>
    obtain ⟨N, h1, h2, h3, h4, h5⟩ := ih fun i j hij hj => hs i j hij (by omega)
    have hlast : heard f 0 (k + 1) = heard f 0 k ++ (match f k with
        | .pending => [.pending] | .ready (some b) => [.pkt b] | .ready none => []) := by
      unfold heard
      rw [List.range'_concat, List.filterMap_append]
      congr 1
      simp only [Nat.zero_add, Nat.one_mul, List.filterMap_cons, List.filterMap_nil]
      rcases f k with (_ | b) | _ <;> rfl
    rcases h5 with rfl | h5
    · by_cases hf : f N = .ready none
      · refine ⟨N, Nat.le_succ _, h2, .inr ⟨rfl, fun i hi hi' => by rw [show i = N by omega]; exact hf⟩, ?_, .inr hf⟩
        rw [hlast, hf, List.append_nil]
      · refine ⟨N + 1, Nat.le_refl _, fun i hi => ?_, .inl (Nat.le_refl _), rfl, .inl rfl⟩
        rcases Nat.lt_or_ge i N with h | h
        · exact h2 i h
        · rw [show i = N by omega]; exact hf
    · have hk : f k = .ready none := by
        rcases Nat.lt_or_ge N k with h | h
        · exact hs N k h (by omega) h5
        · rw [show k = N by omega]; exact h5
      refine ⟨N, by omega, h2, .inr ⟨rfl, fun i hi hi' => ?_⟩, ?_, .inr h5⟩
      · rcases Nat.lt_or_ge N i with h | h
        · exact hs N i h hi' h5
        · rw [show i = N by omega]; exact h5
      · rw [hlast, hk, List.append_nil, h4]

theorem relR_used {r : Reader} {p : Prep Bytes} (h : RelR f N [] r p) (hN : N ≤ r.polls) : p.src = [] ∧ p.pre = r.pre := by
  refine ⟨?_, h.pre⟩
  rw [h.src, show N - r.polls = 0 by omega]
  rfl

theorem rel_same {x : State L} {y : Task.State L Nat Unit} (h : Rel E T words N [] x y) (hN : N ≤ listened x) : SameTime E words x y := by
  cases h with
  | @live p q r m o tr w hp hr hm hb =>
    have htr : ∃ t, Story (maySay E) words t w.trace ∧ (tr = t ∨ p = .over .err ∧ tr = t ++ [.writeError]) := ⟨tr, hb.story, .inl rfl⟩
    have hin : listened ⟨p, r, m, o, tr⟩ = r.polls → w.reader.src = [] ∧ w.reader.pre = r.pre :=
      fun h => relR_used hr (by rw [← h]; exact hN)
    cases hp with
    | hook h rp left a hs =>
      obtain ⟨cs, _, hrp⟩ := Task.reply_cases (S := Nat) (U := Unit) (words h) a
      rw [hrp]
      exact ⟨⟨.said h rp hs, rfl⟩, fun _ _ => hm, fun _ => hin rfl, htr⟩
    | refuse e left a => exact ⟨⟨.refusal e, rfl⟩, fun _ _ => hm, fun _ => hin rfl, htr⟩
    | read b => exact ⟨rfl, fun _ _ => hm, fun _ => hin rfl, htr⟩
    | newMail g => exact ⟨rfl, fun _ _ => hm, fun _ => hin rfl, htr⟩
    | filterFrom g => exact ⟨rfl, fun _ _ => hm, fun _ => hin rfl, htr⟩
    | filterData g => exact ⟨rfl, fun _ _ => hm, fun _ => hin rfl, htr⟩
  | to hr hb => exact ⟨⟨rfl, rfl⟩, fun _ h => absurd rfl (h _ _), fun _ => relR_used hr hN, _, hb.story, .inl rfl⟩
  | handle hd hm hb => exact ⟨⟨rfl, hd.state.symm, hd.buf.symm, hd.reader.pre.symm⟩, fun _ _ => hm, fun _ => relR_used hd.reader hN, _, hb.story, .inl rfl⟩
  | polling ha hs hp hd hm hb => exact ⟨⟨rfl, ha⟩, fun _ _ => hm, fun h => h.elim, _, hb.story, .inl rfl⟩
  | @over e r m o tr w he hm hb =>
    refine ⟨?_, fun _ _ => hm, fun h => h.elim, _, hb.story, .inl rfl⟩
    cases e with
    | err => exact absurd rfl he
    | ok _ => rfl
    | panic p => cases p <;> rfl
    | running => rfl
  | failed hm hb => exact ⟨trivial, fun _ _ => hm, fun h => h.elim, _, hb.story, .inr ⟨rfl, rfl⟩⟩
  | unsendable hm hb => exact ⟨trivial, fun _ _ => hm, fun h => h.elim, _, hb.story, .inl rfl⟩
  | @unwound q r m o tr w hq hb =>
    refine ⟨?_, fun h => absurd rfl h, fun h => h.elim, _, hb.story, .inl rfl⟩
    cases q <;> first | trivial | exact hq.elim

/-! ### What is on the wire -/

/-- The invariant, `o` being what was written before. -/
def Due (o : List Bytes) (x : State L) : Prop :=
  match x.pc with
  | .send r left _ => ∃ part, x.out = o ++ Server.outputOf x.trace ++ part ∧ (Sendable r ↔ replyLines r.1 left ≠ none) ∧
      ∀ ls, replyLines r.1 left = some ls → part ++ ls.map (·.sendTo) = Server.wire r
  | .over e => e = .err ∨ e = .panic .buildUnwrap ∨ x.out = o ++ Server.outputOf x.trace
  | _ => x.out = o ++ Server.outputOf x.trace

theorem due_reply {o out : List Bytes} {tr : List (Ev L)} (r : Reply) (a : Task.After L) (rd : Reader) (m : Option (MailMeta L))
    (h : out = o ++ Server.outputOf tr) : Due o ⟨reply r a, rd, m, out, tr⟩ := by
  obtain ⟨cs, hcs, hr⟩ := reply_send (L := L) r a
  rw [hr]
  have hsr : Verif.sendReply r.1 r.2 = replyLines r.1 cs := by simp [Verif.sendReply, hcs]
  refine ⟨[], by rw [List.append_nil]; exact h, ?_, fun ls hls => by simp [Server.wire, hsr, hls]⟩
  rw [← hsr, Ne, c25_panics_iff]
  constructor
  · rintro h ⟨b, hb, hb'⟩; exact hb' (h b hb)
  · intro h b hb
    exact Classical.byContradiction fun h' => h ⟨b, hb, h'⟩

theorem due_speak {o : List Bytes} (t : Nat) (h : Hook) (a : Task.After L) {x : State L} (hx : x.out = o ++ Server.outputOf x.trace) :
    Due o (speak E t h a x) := by
  obtain ⟨pc, r, m, out, tr⟩ := x
  unfold speak
  split
  · exact due_reply _ _ _ _ hx
  · exact hx

theorem due_dispatch {o : List Bytes} (t : Nat) {x : State L} (hx : x.out = o ++ Server.outputOf x.trace) (l : Bytes) :
    Due o (dispatch E t x l) := by
  unfold dispatch
  split
  · split
    · exact due_speak _ _ _ hx
    · exact hx
  · split
    · exact hx
    · exact due_speak _ _ _ hx
  · split
    · split
      · exact due_speak _ _ _ hx
      · exact hx
    · exact due_speak _ _ _ hx
  · exact due_speak _ _ _ hx
  · exact due_speak _ _ _ hx

theorem due_add {o out : List Bytes} {tr : List (Ev L)} (h : out = o ++ Server.outputOf tr) (e : Ev L) (he : ∀ r, e ≠ .reply r) :
    out = o ++ Server.outputOf (tr ++ [e]) := by
  rw [h, Server.outputOf_append]
  have : Server.outputOf [e] = [] := by cases e <;> first | rfl | exact absurd rfl (he _)
  rw [this, List.append_nil]

theorem due_step {o : List Bytes} (t : Nat) {x : State L} (hx : Due o x) : Due o (step E t x) := by
  obtain ⟨pc, r, m, out, tr⟩ := x
  cases pc with
  | read buf =>
    simp only [step]
    split
    · exact hx
    · split
      · split
        · exact due_dispatch _ (due_add hx (.line _) fun _ h => by cases h) _
        · exact .inr (.inr hx)
      · exact hx
    · split
      · exact .inr (.inr hx)
      · exact .inr (.inr hx)
  | send rp left a =>
    obtain ⟨part, hp, hs, hw⟩ := hx
    cases left with
    | nil =>
      have hpart : part = Server.wire rp := by simpa using hw [] rfl
      simp only [step]
      split
      · exact ⟨part, hp, hs, hw⟩
      · have hx : out = o ++ Server.outputOf (tr ++ [.reply rp]) := by
          dsimp only at hp
          rw [hp, hpart]; simp [Server.outputOf]
        cases a with
        | next => exact hx
        | setMail m => exact hx
        | handle m => exact due_add hx (.handleMail m) fun _ h => by cases h
      · exact .inl rfl
    | cons c cs =>
      simp only [step]
      rw [Server.replyLines_cons] at hs hw
      cases hb : ReplyLine.build rp.1 (if cs.isEmpty then .yes else .no) c with
      | error e => exact .inr (.inl rfl)
      | ok l =>
        have h0 : ¬ l.byteLen < l.sendTo.length := by rw [c19_byte_len]; omega
        rw [hb] at hs hw
        simp only [Except.toOption, if_neg h0] at hs hw ⊢
        split
        · refine ⟨part, hp, ?_, ?_⟩
          · rw [Server.replyLines_cons, hb]; simpa [Except.toOption] using hs
          · rw [Server.replyLines_cons, hb]; simpa [Except.toOption] using hw
        · refine ⟨part ++ [l.sendTo], by dsimp only at hp ⊢; rw [hp]; simp, ?_, ?_⟩
          · rw [hs]; simp
          · intro ls hls
            have := hw (l :: ls) (by simp [hls])
            simpa using this
        · exact .inl rfl
  | newMail f =>
    simp only [step]
    split
    · exact hx
    · exact hx
    · exact due_add hx .newMail fun _ h => by cases h
  | filterFrom f =>
    simp only [step]
    split
    · exact hx
    · exact hx
    · exact due_speak _ _ _ (due_add hx (.filterFrom _ _ _) fun _ h => by cases h)
    · exact due_reply _ _ _ _ (due_add hx (.filterFrom _ _ _) fun _ h => by cases h)
  | filterTo to mi =>
    simp only [step]
    split
    · exact hx
    · exact hx
    · exact due_speak _ _ _ (due_add hx (.filterTo _ _ _ _ _) fun _ h => by cases h)
    · exact due_reply _ _ _ _ (due_add hx (.filterTo _ _ _ _ _) fun _ h => by cases h)
  | filterData mi =>
    simp only [step]
    split
    · exact hx
    · exact hx
    · exact due_speak _ _ _ (due_add hx (.filterData _ _ _) fun _ h => by cases h)
    · exact due_reply _ _ _ _ (due_add hx (.filterData _ _ _) fun _ h => by cases h)
  | handle h d =>
    simp only [step]
    split
    · exact hx
    · exact hx
    · split <;> exact hx
    · split
      · exact .inr (.inr hx)
      · exact hx
    · split
      · split
        · exact due_speak _ _ _ (due_add hx (.handled _) fun _ h => by cases h)
        · exact due_reply _ _ _ _ (due_add hx (.handled _) fun _ h => by cases h)
      · exact .inr (.inr hx)
  | polling h d =>
    simp only [step]
    split <;> exact hx
  | over e => exact hx
  | unwound => exact hx

theorem due_after (o : List Bytes) (n : Nat) : Due o (after E o n) := by
  induction n with
  | zero => exact due_speak _ _ _ (by show o = o ++ []; rw [List.append_nil])
  | succ n ih => exact due_step _ ih

/-- What a reply has left on the wire that the session ended in. -/
theorem due_broken {o : List Bytes} {t : Nat} {x : State L} {r : Reply} {left : List Bytes} {a : Task.After L} (hx : Due o x)
    (hpc : x.pc = .send r left a) (hn : ∀ r left a, (step E t x).pc ≠ .send r left a)
    (he : (step E t x).pc = .over .err ∨ (step E t x).pc = .over (.panic .buildUnwrap)) :
    repliesOf (step E t x).trace = repliesOf x.trace ∧ ∃ part, (step E t x).out = o ++ Server.outputOf (step E t x).trace ++ part ∧
      (Sendable r → part <+: Server.wire r) := by
  obtain ⟨pc, rd, m, out, tr⟩ := x
  dsimp only at hpc
  subst hpc
  obtain ⟨part, hp, hs, hw⟩ := hx
  dsimp only at hp
  have hwe : Server.outputOf (tr ++ [.writeError]) = Server.outputOf tr := by rw [Server.outputOf_append]; simp [Server.outputOf]
  have hre : repliesOf (tr ++ [.writeError]) = repliesOf tr := by
    have : ∀ l : List (Ev L), repliesOf (l ++ [.writeError]) = repliesOf l := by
      intro l
      induction l with
      | nil => rfl
      | cons e l ih => cases e <;> simp [repliesOf, ih]
    exact this tr
  have pre : Sendable r → part <+: Server.wire r := by
    intro h
    obtain ⟨ls, hls⟩ := Option.ne_none_iff_exists'.1 (hs.1 h)
    rw [← hw ls hls]
    exact List.prefix_append _ _
  cases left with
  | nil =>
    simp only [step] at hn he ⊢
    cases hwr : E.write t with
    | pending => rw [hwr] at hn; exact absurd rfl (hn _ _ _)
    | ok => rw [hwr] at he; cases a <;> rcases he with he | he <;> cases he
    | err taken => exact ⟨hre, part, by dsimp only; rw [hwe]; exact hp, pre⟩
  | cons c cs =>
    simp only [step] at hn he ⊢
    cases hb : ReplyLine.build r.1 (if cs.isEmpty then .yes else .no) c with
    | error e => exact ⟨rfl, part, hp, pre⟩
    | ok l =>
      have h0 : ¬ l.byteLen < l.sendTo.length := by rw [c19_byte_len]; omega
      simp only [hb, if_neg h0] at hn he ⊢
      rw [Server.replyLines_cons, hb] at hs hw
      cases hwr : E.write t with
      | pending => rw [hwr] at hn; exact absurd rfl (hn _ _ _)
      | ok => rw [hwr] at hn; exact absurd rfl (hn _ _ _)
      | err taken =>
        dsimp only
        cases taken with
        | false => exact ⟨hre, part, by rw [hwe]; simpa using hp, pre⟩
        | true =>
          refine ⟨hre, part ++ [l.sendTo], by rw [hwe]; simp [hp], fun h => ?_⟩
          obtain ⟨ls, hls⟩ := Option.ne_none_iff_exists'.1 (hs.1 h)
          rw [← hw ls hls]
          simp only [Except.toOption] at hls
          cases hr : replyLines r.1 cs with
          | none => rw [hr] at hls; cases hls
          | some ls' =>
            rw [hr] at hls
            cases hls
            simp

/-! ### The envelope -/

/-- A transaction is open, and `m` is its envelope. -/
def Opened (tr : List (Ev L)) (m : MailMeta L) : Prop :=
  ∃ before sender sender' since, tr = before ++ .filterFrom sender sender' .accept :: since ∧ (∀ e ∈ since, InTransaction e) ∧
    m = since.foldl envelopeStep ⟨sender', []⟩

/-- The mail handler was called in order. -/
def Ordered (tr : List (Ev L)) : Prop :=
  ∀ pre post m, tr = pre ++ .handleMail m :: post → ∃ before sender sender' since envelope r,
    pre = before ++ .filterFrom sender sender' .accept :: since ++ [.filterData envelope m .accept, .reply r] ∧
    (∀ e ∈ since, InTransaction e) ∧ envelope = since.foldl envelopeStep ⟨sender', []⟩

/-- The invariant. -/
def Kept (x : State L) : Prop :=
  Ordered x.trace ∧
  match x.pc with
  | .read _ | .send _ _ .next => ∀ m, x.mail = some m → Opened x.trace m
  | .send _ _ (.setMail m') => ∀ m, m' = some m → Opened x.trace m
  | .send _ _ (.handle m) => x.mail = none ∧ ∃ tr env, x.trace = tr ++ [.filterData env m .accept] ∧ Opened tr env
  | .newMail _ | .filterFrom _ | .handle .. | .polling .. => x.mail = none
  | .filterTo _ m => Opened x.trace m
  | .filterData m => x.mail = none ∧ Opened x.trace m
  | .over _ | .unwound => True

theorem ordered_add {tr : List (Ev L)} (h : Ordered tr) (e : Ev L) (he : ∀ m, e ≠ .handleMail m) : Ordered (tr ++ [e]) := by
  intro pre post m ht
  rcases List.eq_nil_or_concat post with rfl | ⟨q, e', rfl⟩
  · exact absurd (by simpa using (List.append_inj' ht rfl).2) (he m)
  · rw [List.concat_eq_append, ← List.cons_append, ← List.append_assoc] at ht
    exact h pre q m (List.append_inj' ht rfl).1

theorem opened_add {tr : List (Ev L)} {m : MailMeta L} (h : Opened tr m) (e : Ev L) (he : InTransaction e) :
    Opened (tr ++ [e]) (envelopeStep m e) := by
  obtain ⟨b, f, f', s, rfl, h1, rfl⟩ := h
  refine ⟨b, f, f', s ++ [e], by simp, ?_, by simp⟩
  intro x hx
  rcases List.mem_append.1 hx with hx | hx
  · exact h1 x hx
  · rw [List.mem_singleton.1 hx]; exact he

theorem opened_new (tr : List (Ev L)) (f f' : Option (Email L)) : Opened (tr ++ [.filterFrom f f' .accept]) ⟨f', []⟩ :=
  ⟨tr, f, f', [], rfl, (by simp), rfl⟩

/-- What is to be the case after a reply. -/
def Then (tr : List (Ev L)) (mail : Option (MailMeta L)) : Task.After L → Prop
  | .next => ∀ m, mail = some m → Opened tr m
  | .setMail m' => ∀ m, m' = some m → Opened tr m
  | .handle m => mail = none ∧ ∃ tr' env, tr = tr' ++ [.filterData env m .accept] ∧ Opened tr' env

theorem kept_reply (rp : Reply) (a : Task.After L) (r : Reader) (m : Option (MailMeta L)) (o : List Bytes) {tr : List (Ev L)}
    (h : Ordered tr) (h2 : Then tr m a) : Kept ⟨reply rp a, r, m, o, tr⟩ := by
  obtain ⟨cs, _, hr⟩ := reply_send (L := L) rp a
  rw [hr]
  cases a <;> exact ⟨h, h2⟩

theorem kept_speak (t : Nat) (hk : Hook) (a : Task.After L) {x : State L} (h : Ordered x.trace) (h2 : Then x.trace x.mail a) :
    Kept (speak E t hk a x) := by
  obtain ⟨pc, r, m, o, tr⟩ := x
  unfold speak
  split
  · exact kept_reply _ _ _ _ _ h h2
  · exact ⟨h, trivial⟩

theorem kept_dispatch (t : Nat) {x : State L} (h : Ordered x.trace) (h2 : ∀ m, x.mail = some m → Opened x.trace m) (l : Bytes) :
    Kept (dispatch E t x l) := by
  unfold dispatch
  split
  · split
    · exact kept_speak _ _ _ h h2
    · rename_i hn
      refine ⟨h, ?_⟩
      show x.mail = none
      cases hm : x.mail with
      | none => rfl
      | some m => rw [hm] at hn; exact absurd rfl hn
  · split
    · rename_i hm
      exact ⟨h, h2 _ hm⟩
    · exact kept_speak _ _ _ h h2
  · split
    · rename_i hm
      split
      · exact kept_speak _ _ _ h fun m hm' => h2 m (by rw [hm]; exact hm')
      · exact ⟨h, rfl, h2 _ hm⟩
    · exact kept_speak _ _ _ h h2
  · exact kept_speak _ _ _ h h2
  · exact kept_speak _ _ _ h h2

theorem kept_step (t : Nat) {x : State L} (hx : Kept x) : Kept (step E t x) := by
  obtain ⟨pc, r, m, out, tr⟩ := x
  obtain ⟨ho, hx⟩ := hx
  dsimp only at ho hx
  cases pc with
  | read buf =>
    simp only [step]
    split
    · exact ⟨ho, hx⟩
    · split
      · split
        · exact kept_dispatch _ (ordered_add ho (.line _) fun _ h => by cases h)
            (fun m hm => opened_add (hx m hm) (.line _) trivial) _
        · exact ⟨ho, trivial⟩
      · exact ⟨ho, hx⟩
    · split
      · exact ⟨ho, trivial⟩
      · exact ⟨ho, trivial⟩
  | send rp left a =>
    have hx' : Then tr m a := by cases a <;> exact hx
    have stay : ∀ left' out', Kept ⟨.send rp left' a, r, m, out', tr⟩ := by
      intro left' out'
      cases a <;> exact ⟨ho, hx⟩
    cases left with
    | nil =>
      simp only [step]
      split
      · exact stay _ _
      · have hr : Ordered (tr ++ [.reply rp]) := ordered_add ho (.reply rp) fun _ h => by cases h
        cases a with
        | next => exact ⟨hr, fun m hm => opened_add (hx m hm) (.reply rp) trivial⟩
        | setMail m' => exact ⟨hr, fun m hm => opened_add (hx m hm) (.reply rp) trivial⟩
        | handle mm =>
          obtain ⟨hm, tr', env, rfl, b, f, f', s, rfl, h1, rfl⟩ := hx
          refine ⟨?_, hm⟩
          intro pre post m' ht
          rcases List.eq_nil_or_concat post with rfl | ⟨q, e', rfl⟩
          · obtain ⟨ht, hm'⟩ := List.append_inj' ht rfl
            simp only [List.cons.injEq, Ev.handleMail.injEq, and_true] at hm'
            subst hm'
            exact ⟨b, f, f', s, _, rp, by rw [← (List.append_cancel_right ht : _ = pre)]; simp, h1, rfl⟩
          · rw [List.concat_eq_append, ← List.cons_append, ← List.append_assoc] at ht
            exact hr pre q m' (List.append_inj' ht rfl).1
      · exact ⟨ordered_add ho .writeError (fun _ h => by cases h), trivial⟩
    | cons c cs =>
      simp only [step]
      split
      · exact ⟨ho, trivial⟩
      · split
        · exact ⟨ho, trivial⟩
        · split
          · exact stay _ _
          · exact stay _ _
          · exact ⟨ordered_add ho .writeError (fun _ h => by cases h), trivial⟩
  | newMail f =>
    simp only [step]
    split
    · exact ⟨ho, hx⟩
    · exact ⟨ho, trivial⟩
    · exact ⟨ordered_add ho .newMail (fun _ h => by cases h), hx⟩
  | filterFrom f =>
    have hm : m = none := hx
    subst hm
    simp only [step]
    split
    · exact ⟨ho, hx⟩
    · exact ⟨ho, trivial⟩
    · refine kept_speak _ _ _ (ordered_add ho (.filterFrom _ _ _) fun _ h => by cases h) fun m hm => ?_
      cases hm
      exact opened_new _ _ _
    · exact kept_reply _ _ _ _ _ (ordered_add ho (.filterFrom _ _ _) fun _ h => by cases h) fun m hm => by cases hm
  | filterTo to mi =>
    simp only [step]
    split
    · exact ⟨ho, hx⟩
    · exact ⟨ho, trivial⟩
    · refine kept_speak _ _ _ (ordered_add ho (.filterTo _ _ _ _ _) fun _ h => by cases h) fun m hm => ?_
      cases hm
      exact opened_add hx (.filterTo _ _ _ _ .accept) trivial
    · refine kept_reply _ _ _ _ _ (ordered_add ho (.filterTo _ _ _ _ _) fun _ h => by cases h) fun m hm => ?_
      cases hm
      exact opened_add hx (.filterTo _ _ _ _ (.reject _)) trivial
  | filterData mi =>
    simp only [step]
    split
    · exact ⟨ho, hx⟩
    · exact ⟨ho, trivial⟩
    · exact kept_speak _ _ _ (ordered_add ho (.filterData _ _ _) fun _ h => by cases h) ⟨hx.1, _, _, rfl, hx.2⟩
    · refine kept_reply _ _ _ _ _ (ordered_add ho (.filterData _ _ _) fun _ h => by cases h) fun m hm => ?_
      cases hm
      exact opened_add hx.2 (.filterData _ _ (.reject _)) trivial
  | handle h d =>
    have hm : m = none := hx
    subst hm
    simp only [step]
    split
    · exact ⟨ho, rfl⟩
    · exact ⟨ho, trivial⟩
    · split <;> exact ⟨ho, rfl⟩
    · split
      · exact ⟨ho, trivial⟩
      · exact ⟨ho, rfl⟩
    · split
      · split
        · exact kept_speak _ _ _ (ordered_add ho (.handled _) fun _ h => by cases h) fun m hm => by cases hm
        · exact kept_reply _ _ _ _ _ (ordered_add ho (.handled _) fun _ h => by cases h) fun m hm => by cases hm
      · exact ⟨ho, trivial⟩
  | polling h d =>
    simp only [step]
    split <;> exact ⟨ho, hx⟩
  | over e => exact ⟨ho, trivial⟩
  | unwound => exact ⟨ho, trivial⟩

theorem kept_after (o : List Bytes) (n : Nat) : Kept (after E o n) := by
  induction n with
  | zero => exact kept_speak _ _ _ (fun pre post m h => absurd h (by simp)) fun m hm => by cases hm
  | succ n ih => exact kept_step _ ih

/-! ### Panics of the session itself -/

/-- What a stream holds back is all it has. -/
def Held (d : DS) : Prop := d.buf ≠ [] → d.reader.pre = none

theorem held_more {f : Source} {d : DS} {st : DState} : Held (d.more f st).2 ∧
    ((d.more f st).1 = some (.ready none) → (d.more f st).2.state = .earlyFin) ∧
    ∀ b, (d.more f st).1 ≠ some (.ready (some b)) := by
  have hp := poll_pre f d.reader
  unfold DS.more
  rcases hr : d.reader.poll f with ⟨(_ | b) | _, r⟩ <;> rw [hr] at hp <;> dsimp only at hp ⊢
  · exact ⟨fun _ => hp, fun _ => rfl, fun b h => by cases h⟩
  · exact ⟨fun _ => hp, (by intro h; cases h), fun b h => by cases h⟩
  · exact ⟨fun _ => hp, (by intro h; cases h), fun b h => by cases h⟩

theorem held_turn {f : Source} {d : DS} (hd : Held d) : Held (d.turn f).2 ∧
    ((d.turn f).1 = some (.ready none) → (d.turn f).2.state = .earlyFin ∨ (d.turn f).2.state = .finished) := by
  unfold DS.turn
  rcases scanBuf d.state d.buf with ⟨st, _ | x | x | x⟩ <;> dsimp only
  · split
    · exact ⟨fun h => absurd rfl h, (by intro h; cases h)⟩
    · exact ⟨held_more.1, fun h => .inl (held_more.2.1 h)⟩
  · refine ⟨fun h => hd fun hb => h ?_, fun _ => .inr rfl⟩
    simp [hb]
  · refine ⟨fun h => hd fun hb => h ?_, ?_⟩
    · simp [hb]
    · split <;> intro h <;> cases h
  · split
    · refine ⟨fun h => hd fun hb => h ?_, (by intro h; cases h)⟩
      simp [hb]
    · exact ⟨held_more.1, fun h => .inl (held_more.2.1 h)⟩

/-- The invariant of message streams. -/
def Sound (x : State L) : Prop :=
  match x.pc with
  | .handle h d => Held d ∧ (∀ b, h.getLast? = some (.completed b) → d.state = .completed) ∧
      (h.getLast? = some (.polled (.ready none)) → d.state = .earlyFin ∨ d.state = .finished)
  | .polling _ d => Held d
  | _ => True

theorem sound_reply (rp : Reply) (a : Task.After L) (r : Reader) (m : Option (MailMeta L)) (o : List Bytes) (tr : List (Ev L)) :
    Sound ⟨reply rp a, r, m, o, tr⟩ := by
  obtain ⟨cs, _, hr⟩ := reply_send (L := L) rp a
  rw [hr]; trivial

theorem sound_speak (t : Nat) (hk : Hook) (a : Task.After L) (x : State L) : Sound (speak E t hk a x) := by
  obtain ⟨pc, r, m, o, tr⟩ := x
  unfold speak
  split
  · exact sound_reply _ _ _ _ _ _
  · trivial

theorem sound_dispatch (t : Nat) (x : State L) (l : Bytes) : Sound (dispatch E t x l) := by
  unfold dispatch
  split <;> (try split) <;> (try split) <;> first | exact sound_speak _ _ _ _ | trivial

theorem held_complete {d e : DS} {b : Bool} (hd : Held d) (h : d.complete = .ok (b, e)) : Held e ∧ e.state = .completed := by
  unfold DS.complete at h
  split at h
  · cases h; exact ⟨hd, rfl⟩
  · split at h
    · cases h
    · split at h
      · cases hp : d.reader.prepend d.buf with
        | none => rw [hp] at h; cases h
        | some r => rw [hp] at h; cases h; exact ⟨fun h => absurd rfl h, rfl⟩
      · cases h; exact ⟨hd, rfl⟩

theorem sound_step (t : Nat) {x : State L} (hx : Sound x) : Sound (step E t x) := by
  obtain ⟨pc, r, m, out, tr⟩ := x
  cases pc with
  | read buf =>
    simp only [step]
    split
    · trivial
    · split
      · split
        · exact sound_dispatch _ _ _
        · trivial
      · trivial
    · split <;> trivial
  | send rp left a =>
    cases left with
    | nil =>
      simp only [step]
      split
      · trivial
      · cases a with
        | next => trivial
        | setMail => trivial
        | handle m => exact ⟨fun h => absurd rfl h, (by intro b h; cases h), (by intro h; cases h)⟩
      · trivial
    | cons c cs =>
      simp only [step]
      split
      · trivial
      · split
        · trivial
        · split <;> trivial
  | handle h d =>
    obtain ⟨h1, h2, h3⟩ := hx
    simp only [step]
    split
    · exact ⟨h1, h2, h3⟩
    · trivial
    · split
      · rename_i hs
        exact ⟨h1, (by intro b h; simp at h), fun _ => .inr hs⟩
      · exact h1
    · split
      · trivial
      · rename_i hc
        obtain ⟨h4, h5⟩ := held_complete h1 hc
        exact ⟨h4, fun _ _ => h5, (by intro h; simp at h)⟩
    · split
      · split
        · exact sound_speak _ _ _ _
        · exact sound_reply _ _ _ _ _ _
      · trivial
  | polling h d =>
    have := held_turn (f := E.source) (d := d) hx
    simp only [step]
    rcases hd : d.turn E.source with ⟨_ | a, e⟩ <;> rw [hd] at this <;> dsimp only at this ⊢
    · exact this.1
    · refine ⟨this.1, (by intro b h; simp at h), fun h => this.2 ?_⟩
      simpa using h
  | over e => trivial
  | unwound => trivial
  | _ =>
    simp only [step]
    repeat' split
    all_goals first
      | trivial
      | exact sound_speak _ _ _ _
      | exact sound_reply _ _ _ _ _ _

theorem sound_after (o : List Bytes) (n : Nat) : Sound (after E o n) := by
  induction n with
  | zero => exact sound_speak _ _ _ _
  | succ n ih => exact sound_step _ ih

theorem speak_not_over (t : Nat) (hk : Hook) (a : Task.After L) (x : State L) (e : Res Unit) : (speak E t hk a x).pc ≠ .over e := by
  unfold speak
  split
  · obtain ⟨cs, _, hr⟩ := reply_send (L := L) _ a
    rw [hr]; exact fun h => by cases h
  · exact fun h => by cases h

theorem reply_not_over (rp : Reply) (a : Task.After L) (e : Res Unit) : (reply rp a : PC L) ≠ .over e := by
  obtain ⟨cs, _, hr⟩ := reply_send (L := L) rp a
  rw [hr]; exact fun h => by cases h

theorem dispatch_not_over (t : Nat) (x : State L) (l : Bytes) (e : Res Unit) : (dispatch E t x l).pc ≠ .over e := by
  unfold dispatch
  split <;> (try split) <;> (try split) <;> first | exact speak_not_over _ _ _ _ _ | exact fun h => by cases h

/-- The steps in which the session panics. -/
theorem panic_step {o : List Bytes} {t : Nat} {x : State L} (hd : Due o x) (hx : Sound x) (hn : ¬ Ended x.pc) {p : Panic}
    (h : (step E t x).pc = .over (.panic p)) :
    (∃ r left a, x.pc = .send r left a ∧ ¬ Sendable r) ∨
    (∃ h d, x.pc = .handle h d ∧ E.handleMail t = .ready .complete ∧ h.getLast? ≠ some (.polled (.ready none))) ∨
    (∃ h d dec, x.pc = .handle h d ∧ E.handleMail t = .ready (.done dec) ∧ ∀ b, h.getLast? ≠ some (.completed b)) := by
  obtain ⟨pc, r, m, out, tr⟩ := x
  cases pc with
  | read buf =>
    exfalso
    have hp := poll_pre E.source r
    simp only [step] at h
    rcases hr : r.poll E.source with ⟨(_ | b) | _, r'⟩ <;> rw [hr] at hp h <;> dsimp only at hp h
    · unfold Reader.prepend at h
      rw [hp] at h
      cases h
    · cases hf : findCrlf (buf ++ b) with
      | none => rw [hf] at h; cases h
      | some pos =>
        rw [hf] at h
        dsimp only at h
        unfold Reader.prepend at h
        rw [hp] at h
        exact dispatch_not_over _ _ _ _ h
    · cases h
  | send rp left a =>
    refine .inl ⟨rp, left, a, rfl, ?_⟩
    obtain ⟨part, -, hs, -⟩ := hd
    cases left with
    | nil =>
      simp only [step] at h
      split at h
      · cases h
      · cases a <;> cases h
      · cases h
    | cons c cs =>
      rw [Server.replyLines_cons] at hs
      simp only [step] at h
      cases hb : ReplyLine.build rp.1 (if cs.isEmpty then .yes else .no) c with
      | error e =>
        rw [hb] at hs
        intro hsend
        exact absurd (hs.1 hsend) (by simp [Except.toOption])
      | ok l =>
        have h0 : ¬ l.byteLen < l.sendTo.length := by rw [c19_byte_len]; omega
        simp only [hb, if_neg h0] at h
        split at h <;> cases h
  | newMail f =>
    simp only [step] at h
    split at h <;> cases h
  | filterFrom f =>
    simp only [step] at h
    split at h
    · cases h
    · cases h
    · exact absurd h (speak_not_over _ _ _ _ _)
    · exact absurd h (reply_not_over _ _ _)
  | filterTo to mi =>
    simp only [step] at h
    split at h
    · cases h
    · cases h
    · exact absurd h (speak_not_over _ _ _ _ _)
    · exact absurd h (reply_not_over _ _ _)
  | filterData mi =>
    simp only [step] at h
    split at h
    · cases h
    · cases h
    · exact absurd h (speak_not_over _ _ _ _ _)
    · exact absurd h (reply_not_over _ _ _)
  | handle hh d =>
    obtain ⟨h1, h2, h3⟩ := hx
    simp only [step] at h
    cases hw : E.handleMail t with
    | pending => rw [hw] at h; cases h
    | panicked => rw [hw] at h; cases h
    | ready w =>
      rw [hw] at h
      cases w with
      | poll => dsimp only at h; split at h <;> cases h
      | complete =>
        refine .inr (.inl ⟨hh, d, rfl, rfl, fun hl => ?_⟩)
        dsimp only at h
        have hc : ∃ b e, d.complete = .ok (b, e) := by
          unfold DS.complete
          by_cases he : d.state = .earlyFin
          · rw [if_pos he]; exact ⟨_, _, rfl⟩
          · rw [if_neg he, if_neg (fun hne => hne ((h3 hl).resolve_left he))]
            split
            · rename_i hb
              unfold Reader.prepend
              rw [h1 hb]
              exact ⟨_, _, rfl⟩
            · exact ⟨_, _, rfl⟩
        obtain ⟨b, e, hc⟩ := hc
        rw [hc] at h
        cases h
      | done dec =>
        refine .inr (.inr ⟨hh, d, dec, rfl, rfl, fun b hl => ?_⟩)
        dsimp only at h
        rw [if_pos (h2 b hl)] at h
        split at h
        · exact absurd h (speak_not_over _ _ _ _ _)
        · exact absurd h (reply_not_over _ _ _)
  | polling hh d =>
    simp only [step] at h
    split at h <;> cases h
  | over e => exact absurd trivial hn
  | unwound => exact absurd trivial hn

/-- Only a session that is sending a reply breaks off in one. -/
theorem only_sends {t : Nat} {x : State L} (hn : ¬ Ended x.pc)
    (h : (step E t x).pc = .over .err ∨ (step E t x).pc = .over (.panic .buildUnwrap)) : ∃ r left a, x.pc = .send r left a := by
  obtain ⟨pc, r, m, out, tr⟩ := x
  have sp : ∀ {hk : Hook} {a : Task.After L} {y : State L},
      ¬ ((speak E t hk a y).pc = .over .err ∨ (speak E t hk a y).pc = .over (.panic .buildUnwrap)) := by
    rintro hk a y (h | h) <;> exact speak_not_over _ _ _ _ _ h
  have rf : ∀ {rp : Reply} {a : Task.After L},
      ¬ ((reply rp a : PC L) = .over .err ∨ (reply rp a : PC L) = .over (.panic .buildUnwrap)) := by
    rintro rp a (h | h) <;> exact reply_not_over _ _ _ h
  cases pc with
  | send rp left a => exact ⟨rp, left, a, rfl⟩
  | read buf =>
    exfalso
    simp only [step] at h
    split at h
    · rcases h with h | h <;> cases h
    · split at h
      · split at h
        · rcases h with h | h <;> exact dispatch_not_over _ _ _ _ h
        · rcases h with h | h <;> cases h
      · rcases h with h | h <;> cases h
    · split at h <;> rcases h with h | h <;> cases h
  | handle hh d =>
    exfalso
    simp only [step] at h
    split at h
    · rcases h with h | h <;> cases h
    · rcases h with h | h <;> cases h
    · split at h <;> rcases h with h | h <;> cases h
    · split at h
      · rename_i p hc
        rcases h with h | h
        · cases h
        · cases h
          unfold DS.complete at hc
          split at hc
          · cases hc
          · split at hc
            · cases hc
            · split at hc
              · split at hc <;> cases hc
              · cases hc
      · rcases h with h | h <;> cases h
    · split at h
      · split at h
        · exact sp h
        · exact rf h
      · rcases h with h | h <;> cases h
  | over e => exact absurd trivial hn
  | unwound => exact absurd trivial hn
  | _ =>
    exfalso
    simp only [step] at h
    split at h
    all_goals first
      | exact sp h
      | exact rf h
      | (rcases h with h | h <;> cases h)

/-! ### Progress -/

/-- Bytes that the polls from number `k` on have yet to give, each counted twice, and the polls; the connection ends at poll `N`. -/
def ahead (f : Source) (N k : Nat) : Nat :=
  ((List.range' k (N - k)).map fun i => match f i with | .ready (some b) => 2 * b.length + 1 | _ => 1).sum

theorem ahead_next {f : Source} {N k : Nat} (h : k < N) :
    ahead f N k = (match f k with | .ready (some b) => 2 * b.length + 1 | _ => 1) + ahead f N (k + 1) := by
  unfold ahead
  rw [show N - k = (N - (k + 1)) + 1 by omega, List.range'_succ, List.map_cons, List.sum_cons]

theorem ahead_over {f : Source} {N k : Nat} (h : N ≤ k) : ahead f N k = 0 := by
  unfold ahead
  rw [show N - k = 0 by omega]
  rfl

/-- What can still be read. -/
def fuel (f : Source) (N : Nat) (r : Reader) : Nat :=
  ahead f N r.polls + match r.pre with | some b => 2 * b.length + 1 | none => 0

/-- What a stream can still give. -/
def fuelD (f : Source) (N : Nat) (d : DS) : Nat :=
  fuel f N d.reader + 2 * d.buf.length + if d.state = .finished then 1 else 0

theorem fuel_poll {f : Source} {N : Nat} (he : ∀ i, N ≤ i → f i = .ready none) (r : Reader) :
    match r.poll f with
    | (.pending, r') => fuel f N r' < fuel f N r
    | (.ready (some b), r') => fuel f N r' + 2 * b.length < fuel f N r
    | (.ready none, r') => fuel f N r' ≤ fuel f N r := by
  obtain ⟨k, pre⟩ := r
  cases pre with
  | some b => simp only [Reader.poll, fuel]; omega
  | none =>
    simp only [Reader.poll]
    rcases Nat.lt_or_ge k N with h | h
    · have := ahead_next (f := f) h
      rcases hf : f k with (_ | b) | _ <;> rw [hf] at this <;> dsimp only at this ⊢ <;> unfold fuel <;> dsimp only
      · omega
      · have : ahead f N k = 2 * b.length + 1 + ahead f N (k + 1) := this
        omega
      · omega
    · rw [he k h]
      unfold fuel
      dsimp only
      rw [ahead_over (by omega : N ≤ k + 1)]
      omega

theorem fuel_prepend {f : Source} {N : Nat} {r r' : Reader} {b : Bytes} (h : r.prepend b = some r') :
    fuel f N r' = fuel f N r + 2 * b.length + 1 := by
  obtain ⟨k, pre⟩ := r
  unfold Reader.prepend at h
  cases pre with
  | some _ => cases h
  | none => cases h; simp only [fuel]; omega

theorem scan_finished {st : DState} {buf : Bytes} (h : (scanBuf st buf).1 = .finished) : st = .finished := by
  have hw : ∀ st idx, (scanWindows st idx buf).1 = .finished → st = .finished := by
    clear h
    intro st idx hw
    fun_induction scanWindows st idx buf <;> simp_all
  unfold scanBuf at h
  split at h
  · rename_i st' he
    have : (scanWindows st 0 buf).1 = st' := by rw [he]
    apply hw st 0
    rw [this]
    unfold scanLast at h
    grind
  · exact hw st 0 h

theorem fuel_more {f : Source} {N : Nat} (he : ∀ i, N ≤ i → f i = .ready none) (d : DS) (st : DState)
    (hst : st = .finished → d.state = .finished) :
    fuelD f N (d.more f st).2 ≤ fuelD f N d ∧ ((d.more f st).1 = none → fuelD f N (d.more f st).2 < fuelD f N d) := by
  have := fuel_poll he d.reader
  have hif : (if st = .finished then 1 else 0) ≤ if d.state = .finished then 1 else 0 := by
    by_cases h : st = .finished
    · rw [if_pos h, if_pos (hst h)]; exact Nat.le_refl _
    · rw [if_neg h]; exact Nat.zero_le _
  unfold DS.more
  rcases hr : d.reader.poll f with ⟨(_ | b) | _, r⟩ <;> rw [hr] at this <;> dsimp only at this ⊢ <;> unfold fuelD <;> dsimp only
  · rw [if_neg (by simp)]
    exact ⟨by omega, (by intro h; cases h)⟩
  · rw [List.length_append]
    exact ⟨by omega, fun _ => by omega⟩
  · exact ⟨by omega, (by intro h; cases h)⟩

/-- A turn of the loop uses something up if it goes on. -/
theorem fuel_turn {f : Source} {N : Nat} (he : ∀ i, N ≤ i → f i = .ready none) (d : DS) :
    fuelD f N (d.turn f).2 ≤ fuelD f N d ∧ ((d.turn f).1 = none → fuelD f N (d.turn f).2 < fuelD f N d) := by
  unfold DS.turn
  rcases hs : scanBuf d.state d.buf with ⟨st, _ | x | x | x⟩ <;> dsimp only
  · have hst : st = .finished → d.state = .finished := fun h => scan_finished (by rw [hs]; exact h)
    split
    · refine ⟨?_, (by intro h; cases h)⟩
      unfold fuelD
      dsimp only
      by_cases h : st = .finished
      · rw [if_pos h, if_pos (hst h)]; simp
      · rw [if_neg h]; simp; omega
    · exact fuel_more he d st hst
  · have := Checked.scanBuf_eof hs
    refine ⟨?_, (by intro h; cases h)⟩
    unfold fuelD
    simp only [List.length_drop, if_true]
    omega
  · have := scanBuf_escape_lt hs
    have hlt : fuelD f N { d with state := .running, buf := (d.buf.drop x).drop 1 } < fuelD f N d := by
      unfold fuelD
      simp only [List.length_drop, reduceCtorEq, if_false]
      omega
    exact ⟨Nat.le_of_lt hlt, fun _ => hlt⟩
  · have hst : st = .finished → d.state = .finished := fun h => scan_finished (by rw [hs]; exact h)
    split
    · refine ⟨?_, (by intro h; cases h)⟩
      unfold fuelD
      simp only [List.length_drop]
      by_cases h : st = .finished
      · rw [if_pos h, if_pos (hst h)]; omega
      · rw [if_neg h]; omega
    · exact fuel_more he d st hst

theorem fuel_complete {f : Source} {N : Nat} {d e : DS} {b : Bool} (h : d.complete = .ok (b, e)) : fuelD f N e ≤ fuelD f N d := by
  unfold DS.complete at h
  split at h
  · cases h; unfold fuelD; simp
  · split at h
    · cases h
    · rename_i hs
      have hs : d.state = .finished := by simpa using hs
      split at h
      · cases hp : d.reader.prepend d.buf with
        | none => rw [hp] at h; cases h
        | some r =>
          rw [hp] at h
          cases h
          have := fuel_prepend (f := f) (N := N) hp
          unfold fuelD
          simp only [hs, if_true, List.length_nil, reduceCtorEq, if_false]
          omega
      · cases h; unfold fuelD; simp

/-- What the session can still read. -/
def stock (f : Source) (N : Nat) (x : State L) : Nat :=
  match x.pc with
  | .read b => fuel f N x.reader + 2 * b.length
  | .handle _ d | .polling _ d => fuelD f N d
  | .over _ | .unwound => 0
  | _ => fuel f N x.reader

theorem stock_reply {f : Source} {N : Nat} (rp : Reply) (a : Task.After L) (r : Reader) (m : Option (MailMeta L)) (o : List Bytes)
    (tr : List (Ev L)) : stock f N ⟨reply rp a, r, m, o, tr⟩ = fuel f N r := by
  obtain ⟨cs, _, hr⟩ := reply_send (L := L) rp a
  rw [hr]; rfl

theorem stock_speak {f : Source} {N : Nat} (t : Nat) (h : Hook) (a : Task.After L) (x : State L) :
    stock f N (speak E t h a x) ≤ fuel f N x.reader := by
  obtain ⟨pc, r, m, o, tr⟩ := x
  unfold speak
  split
  · rw [stock_reply]; exact Nat.le_refl _
  · exact Nat.zero_le _

theorem stock_dispatch {f : Source} {N : Nat} (t : Nat) (x : State L) (l : Bytes) : stock f N (dispatch E t x l) ≤ fuel f N x.reader := by
  unfold dispatch
  split <;> (try split) <;> (try split) <;> first | exact stock_speak _ _ _ _ | exact Nat.le_refl _

/-- No step adds to it, and reading uses something up, or is over. -/
theorem stock_step {N : Nat} (he : ∀ i, N ≤ i → E.source i = .ready none) (t : Nat) (x : State L) :
    stock E.source N (step E t x) ≤ stock E.source N x ∧
    (∀ b, x.pc = .read b → stock E.source N (step E t x) < stock E.source N x ∨ Ended (step E t x).pc) ∧
    (∀ h d, x.pc = .polling h d → (∃ e, (step E t x).pc = .polling h e) → stock E.source N (step E t x) < stock E.source N x) := by
  obtain ⟨pc, r, m, out, tr⟩ := x
  have sp : ∀ (hk : Hook) (a : Task.After L) (y : State L), y.reader = r → stock E.source N (speak E t hk a y) ≤ fuel E.source N r :=
    fun hk a y hy => by rw [← hy]; exact stock_speak _ _ _ _
  have rf : ∀ (rp : Reply) (a : Task.After L) (m : Option (MailMeta L)) (o : List Bytes) (tr : List (Ev L)),
      stock E.source N ⟨reply rp a, r, m, o, tr⟩ ≤ fuel E.source N r :=
    fun rp a m o tr => by rw [stock_reply]; exact Nat.le_refl _
  cases pc with
  | read b =>
    have key : stock E.source N (step E t ⟨.read b, r, m, out, tr⟩) < fuel E.source N r + 2 * b.length ∨
        Ended (step E t ⟨.read b, r, m, out, tr⟩).pc ∧ stock E.source N (step E t ⟨.read b, r, m, out, tr⟩) = 0 := by
      have hp := fuel_poll he r
      have hpre := poll_pre E.source r
      simp only [step]
      rcases hr : r.poll E.source with ⟨(_ | pkt) | _, r'⟩ <;> rw [hr] at hp hpre <;> dsimp only at hp hpre ⊢
      · right
        cases r'.prepend b <;> exact ⟨trivial, rfl⟩
      · cases hf : findCrlf (b ++ pkt) with
        | none =>
          left
          simp only [stock, List.length_append]
          omega
        | some pos =>
          dsimp only
          cases hpp : r'.prepend ((b ++ pkt).drop (pos + 2)) with
          | none => exact .inr ⟨trivial, rfl⟩
          | some r'' =>
            left
            dsimp only
            refine Nat.lt_of_le_of_lt (stock_dispatch _ _ _) ?_
            have := fuel_prepend (f := E.source) (N := N) hpp
            have hlen := Checked.findCrlf_le hf
            simp only [List.length_drop, List.length_append] at this hlen ⊢
            omega
      · left
        simp only [stock]
        omega
    refine ⟨?_, fun _ _ => ?_, fun _ _ h => by cases h⟩
    · rcases key with h | h
      · exact Nat.le_of_lt h
      · rw [h.2]; exact Nat.zero_le _
    · rcases key with h | h
      · exact .inl h
      · exact .inr h.1
  | send rp left a =>
    refine ⟨?_, (by intro b h; cases h), (by intro _ _ h; cases h)⟩
    cases left with
    | nil =>
      simp only [step]
      split
      · exact Nat.le_refl _
      · cases a with
        | next => exact Nat.le_refl _
        | setMail => exact Nat.le_refl _
        | handle m => exact Nat.le_refl _
      · exact Nat.zero_le _
    | cons c cs =>
      simp only [step]
      split
      · exact Nat.zero_le _
      · split
        · exact Nat.zero_le _
        · split <;> first | exact Nat.le_refl _ | exact Nat.zero_le _
  | handle h d =>
    refine ⟨?_, (by intro b h; cases h), (by intro _ _ h; cases h)⟩
    have hle : fuel E.source N d.reader ≤ fuelD E.source N d := by unfold fuelD; omega
    simp only [step]
    split
    · exact Nat.le_refl _
    · exact Nat.zero_le _
    · split <;> exact Nat.le_refl _
    · split
      · exact Nat.zero_le _
      · rename_i hc
        exact fuel_complete hc
    · split
      · split
        · exact Nat.le_trans (stock_speak _ _ _ _) hle
        · rw [stock_reply]; exact hle
      · exact Nat.zero_le _
  | polling h d =>
    have := fuel_turn he d
    simp only [step]
    rcases hd : d.turn E.source with ⟨_ | a, e⟩ <;> rw [hd] at this <;> dsimp only at this ⊢
    · exact ⟨this.1, (by intro b h; cases h), fun _ _ _ _ => this.2 rfl⟩
    · refine ⟨this.1, (by intro b h; cases h), ?_⟩
      rintro _ _ _ ⟨e, h⟩
      cases h
  | over e => exact ⟨Nat.le_refl _, (by intro b h; cases h), (by intro _ _ h; cases h)⟩
  | unwound => exact ⟨Nat.le_refl _, (by intro b h; cases h), (by intro _ _ h; cases h)⟩
  | _ =>
    refine ⟨?_, (by intro b h; cases h), (by intro _ _ h; cases h)⟩
    simp only [step]
    repeat' split
    all_goals first
      | exact Nat.le_refl _
      | exact Nat.zero_le _
      | exact sp _ _ _ rfl
      | exact rf _ _ _ _ _

theorem after_ended {o : List Bytes} {n : Nat} (h : Ended (after E o n).pc) (k : Nat) : after E o (n + k) = after E o n := by
  induction k with
  | zero => rfl
  | succ k ih =>
    show step E (n + k + 1) (after E o (n + k)) = _
    rw [ih]
    exact ended_step _ h

theorem stock_after {N : Nat} (he : ∀ i, N ≤ i → E.source i = .ready none) (o : List Bytes) (n k : Nat) :
    stock E.source N (after E o (n + k)) ≤ stock E.source N (after E o n) := by
  induction k with
  | zero => exact Nat.le_refl _
  | succ k ih => exact Nat.le_trans (stock_step he _ _).1 ih

/-- The first of the numbers from `n` on of which `P` holds. -/
theorem first {P : Nat → Prop} {n t : Nat} (h : n ≤ t) (hP : P t) : ∃ k, P (n + k) ∧ ∀ j, j < k → ¬ P (n + j) := by
  obtain ⟨d, rfl⟩ := Nat.exists_eq_add_of_le h
  clear h
  induction d using Nat.strongRecOn with
  | ind d ih =>
    by_cases hd : ∃ j, j < d ∧ P (n + j)
    · obtain ⟨j, hj, hPj⟩ := hd
      exact ih j hj hPj
    · exact ⟨d, hP, fun j hj hPj => hd ⟨j, hj, hPj⟩⟩

/-- What waits goes on at last. -/
theorem goes_on {o : List Bytes} {n : Nat} {Q : Nat → Prop} {p : PC L} (hp : (after E o n).pc = p) (hQ : ∃ t, n + 1 ≤ t ∧ Q t)
    (stay : ∀ t (x : State L), x.pc = p → ¬ Q t → (step E t x).pc = p) :
    ∃ k, (after E o (n + k)).pc = p ∧ Q (n + k + 1) := by
  obtain ⟨t, ht, hQt⟩ := hQ
  obtain ⟨k, hk, hj⟩ := first ht hQt
  refine ⟨k, ?_, by rw [show n + k + 1 = n + 1 + k by omega]; exact hk⟩
  clear hk
  induction k with
  | zero => exact hp
  | succ k ih =>
    refine stay (n + k + 1) _ (ih fun j hjk => hj j (by omega)) ?_
    rw [show n + k + 1 = n + 1 + k by omega]
    exact hj k (by omega)

/-- The session reads a line, or is over. -/
def Turns (p : PC L) : Prop := Ended p ∨ ∃ b, p = .read b

theorem turns_send (hR : Responsive E) {o : List Bytes} (left : List Bytes) {n : Nat} {r : Reply} {a : Task.After L}
    (hp : (after E o n).pc = .send r left a) :
    ∃ k, Turns (after E o (n + k)).pc ∨ ∃ h d, (after E o (n + k)).pc = .handle h d ∧ ∃ m, a = .handle m := by
  induction left generalizing n with
  | nil =>
    obtain ⟨k, hk, hQ⟩ := goes_on (E := E) (Q := fun t => E.write t ≠ .pending) hp (hR.write (n + 1)) (by
      rintro t ⟨pc, r, m, out, tr⟩ hx hQ
      dsimp only at hx
      subst hx
      simp only [step, Classical.not_not.1 hQ])
    refine ⟨k + 1, ?_⟩
    have hs : after E o (n + (k + 1)) = step E (n + k + 1) (after E o (n + k)) := rfl
    rw [hs]
    generalize after E o (n + k) = x at hk
    obtain ⟨pc, r, m, out, tr⟩ := x
    dsimp only at hk
    subst hk
    simp only [step]
    cases hw : E.write (n + k + 1) with
    | pending => exact absurd hw hQ
    | ok =>
      cases a with
      | next => exact .inl (.inr ⟨_, rfl⟩)
      | setMail => exact .inl (.inr ⟨_, rfl⟩)
      | handle m => exact .inr ⟨_, _, rfl, m, rfl⟩
    | err => exact .inl (.inl trivial)
  | cons c cs ih =>
    obtain ⟨k, hk, hQ⟩ : ∃ k, (after E o (n + k)).pc = .send r (c :: cs) a ∧
        ((∃ e, ReplyLine.build r.1 (if cs.isEmpty then .yes else .no) c = .error e) ∨ E.write (n + k + 1) ≠ .pending) := by
      refine goes_on (E := E) (Q := fun t => (∃ e, ReplyLine.build r.1 (if cs.isEmpty then .yes else .no) c = .error e) ∨
        E.write t ≠ .pending) hp (by obtain ⟨t, ht, h⟩ := hR.write (n + 1); exact ⟨t, ht, .inr h⟩) ?_
      rintro t ⟨pc, rd, m, out, tr⟩ hx hQ
      dsimp only at hx
      subst hx
      simp only [step]
      cases hb : ReplyLine.build r.1 (if cs.isEmpty then .yes else .no) c with
      | error e => exact absurd (.inl ⟨e, hb⟩) hQ
      | ok l =>
        have h0 : ¬ l.byteLen < l.sendTo.length := by rw [c19_byte_len]; omega
        have : E.write t = .pending := Classical.byContradiction fun h => hQ (.inr h)
        simp only [if_neg h0, this]
    have hs : after E o (n + (k + 1)) = step E (n + k + 1) (after E o (n + k)) := rfl
    have key : Turns (after E o (n + (k + 1))).pc ∨ (after E o (n + (k + 1))).pc = .send r cs a := by
      rw [hs]
      generalize after E o (n + k) = x at hk
      obtain ⟨pc, rd, m, out, tr⟩ := x
      dsimp only at hk
      subst hk
      simp only [step]
      cases hb : ReplyLine.build r.1 (if cs.isEmpty then .yes else .no) c with
      | error e => exact .inl (.inl trivial)
      | ok l =>
        have h0 : ¬ l.byteLen < l.sendTo.length := by rw [c19_byte_len]; omega
        simp only [if_neg h0]
        cases hw : E.write (n + k + 1) with
        | pending =>
          rcases hQ with ⟨e, he⟩ | hQ
          · rw [hb] at he; cases he
          · exact absurd hw hQ
        | ok => exact .inr rfl
        | err => exact .inl (.inl trivial)
    rcases key with h | h
    · exact ⟨k + 1, .inl h⟩
    · obtain ⟨j, hj⟩ := ih h
      exact ⟨k + 1 + j, by rw [← Nat.add_assoc]; exact hj⟩

theorem speak_sends (t : Nat) (h : Hook) (a : Task.After L) (x : State L) :
    Ended (speak E t h a x).pc ∨ ∃ r left, (speak E t h a x).pc = .send r left a := by
  unfold speak
  split
  · obtain ⟨cs, _, hr⟩ := reply_send (L := L) _ a
    exact .inr ⟨_, cs, hr⟩
  · exact .inl trivial

theorem reply_sends (rp : Reply) (a : Task.After L) : ∃ r left, (reply rp a : PC L) = .send r left a := by
  obtain ⟨cs, _, hr⟩ := reply_send (L := L) rp a
  exact ⟨_, cs, hr⟩

theorem turns_shift {o : List Bytes} {n k : Nat} (h : ∃ j, Turns (after E o (n + k + j)).pc) : ∃ j, Turns (after E o (n + j)).pc := by
  obtain ⟨j, hj⟩ := h
  exact ⟨k + j, by rw [← Nat.add_assoc]; exact hj⟩

/-- After a reply that does not go with a mail handler, the session reads. -/
theorem turns_plain (hR : Responsive E) {o : List Bytes} {n : Nat} {a : Task.After L} (ha : ∀ m, a ≠ .handle m)
    (h : Ended (after E o n).pc ∨ ∃ r left, (after E o n).pc = .send r left a) : ∃ k, Turns (after E o (n + k)).pc := by
  rcases h with h | ⟨r, left, h⟩
  · exact ⟨0, .inl h⟩
  · obtain ⟨k, hk | ⟨_, _, _, m, hm⟩⟩ := turns_send hR left h
    · exact ⟨k, hk⟩
    · exact absurd hm (ha m)

theorem turns_handle (hR : Responsive E) {o : List Bytes} (hH : ∀ n, ∃ m, n ≤ m ∧ ¬ HandlerWorks (after E o m)) {n : Nat}
    (h : HandlerWorks (after E o n)) : ∃ k, Turns (after E o (n + k)).pc := by
  obtain ⟨m, hm, hno⟩ := hH n
  obtain ⟨k, hk, hj⟩ := first (P := fun n => ¬ HandlerWorks (after E o n)) hm hno
  cases k with
  | zero => exact absurd h hk
  | succ k =>
    have hw := Classical.not_not.1 (hj k (by omega))
    refine turns_shift (k := k + 1) (turns_plain hR (a := .next) (fun _ h => by cases h) ?_)
    have hs : after E o (n + (k + 1)) = step E (n + k + 1) (after E o (n + k)) := rfl
    rw [hs] at hk ⊢
    generalize after E o (n + k) = x at hk hw
    obtain ⟨pc, r, m, out, tr⟩ := x
    rcases hw with ⟨h, d, hw⟩ | ⟨h, d, hw⟩ <;> dsimp only at hw <;> subst hw
    · simp only [step] at hk ⊢
      cases ha : E.handleMail (n + k + 1) with
      | pending => rw [ha] at hk; exact absurd (.inl ⟨_, _, rfl⟩) hk
      | panicked => exact .inl trivial
      | ready w =>
        rw [ha] at hk
        cases w with
        | poll =>
          dsimp only at hk
          split at hk
          · exact absurd (.inl ⟨_, _, rfl⟩) hk
          · exact absurd (.inr ⟨_, _, rfl⟩) hk
        | complete =>
          dsimp only at hk ⊢
          cases hc : d.complete with
          | error p => exact .inl trivial
          | ok e => rw [hc] at hk; exact absurd (.inl ⟨_, _, rfl⟩) hk
        | done dec =>
          dsimp only
          split
          · cases dec with
            | accept => exact speak_sends _ _ _ _
            | reject e => exact .inr (reply_sends _ _)
          · exact .inl trivial
    · simp only [step] at hk
      rcases hd : d.turn E.source with ⟨_ | a, e⟩ <;> rw [hd] at hk
      · exact absurd (.inr ⟨_, _, rfl⟩) hk
      · exact absurd (.inl ⟨_, _, rfl⟩) hk

theorem turns_any (hR : Responsive E) {o : List Bytes} (hH : ∀ n, ∃ m, n ≤ m ∧ ¬ HandlerWorks (after E o m)) (n : Nat) :
    ∃ k, Turns (after E o (n + k)).pc := by
  have hsend : ∀ {n r left a}, (after E o n).pc = .send r left a → ∃ k, Turns (after E o (n + k)).pc := by
    intro n r left a h
    obtain ⟨k, hk | ⟨h, d, hh, _⟩⟩ := turns_send hR left h
    · exact ⟨k, hk⟩
    · exact turns_shift (turns_handle hR hH (.inl ⟨h, d, hh⟩))
  have hsend' : ∀ {n a}, (Ended (after E o n).pc ∨ ∃ r left, (after E o n).pc = .send r left a) → ∃ k, Turns (after E o (n + k)).pc := by
    rintro n a (h | ⟨r, left, h⟩)
    · exact ⟨0, .inl h⟩
    · exact hsend h
  have hfrom : ∀ {n g}, (after E o n).pc = .filterFrom g → ∃ k, Turns (after E o (n + k)).pc := by
    intro n g hp
    obtain ⟨k, hk, hQ⟩ := goes_on (E := E) (Q := fun t => E.filterFrom t ≠ .pending) hp (hR.filterFrom (n + 1)) (by
      rintro t ⟨pc, r, m, out, tr⟩ hx hQ
      dsimp only at hx
      subst hx
      simp only [step, Classical.not_not.1 hQ])
    have hs : after E o (n + (k + 1)) = step E (n + k + 1) (after E o (n + k)) := rfl
    have : ∃ a, Ended (after E o (n + (k + 1))).pc ∨ ∃ r left, (after E o (n + (k + 1))).pc = .send r left a := by
      rw [hs]
      generalize after E o (n + k) = x at hk
      obtain ⟨pc, rd, m, out, tr⟩ := x
      dsimp only at hk
      subst hk
      simp only [step]
      rcases hw : E.filterFrom (n + k + 1) with _ | ⟨_ | e, f⟩ | _
      · exact absurd hw hQ
      · exact ⟨_, speak_sends _ _ _ _⟩
      · exact ⟨_, .inr (reply_sends _ _)⟩
      · exact ⟨.next, .inl trivial⟩
    obtain ⟨a, this⟩ := this
    exact turns_shift (hsend' this)
  rcases hx : (after E o n).pc with b | ⟨r, left, a⟩ | g | g | ⟨to, mi⟩ | mi | ⟨h, d⟩ | ⟨h, d⟩ | e | _
  · exact ⟨0, .inr ⟨b, hx⟩⟩
  · exact hsend hx
  · obtain ⟨k, hk, hQ⟩ := goes_on (E := E) (Q := fun t => E.newMail t ≠ .pending) hx (hR.newMail (n + 1)) (by
      rintro t ⟨pc, r, m, out, tr⟩ hx hQ
      dsimp only at hx
      subst hx
      simp only [step, Classical.not_not.1 hQ])
    have hs : after E o (n + (k + 1)) = step E (n + k + 1) (after E o (n + k)) := rfl
    have : Ended (after E o (n + (k + 1))).pc ∨ (after E o (n + (k + 1))).pc = .filterFrom g := by
      rw [hs]
      generalize after E o (n + k) = x at hk
      obtain ⟨pc, rd, m, out, tr⟩ := x
      dsimp only at hk
      subst hk
      simp only [step]
      rcases hw : E.newMail (n + k + 1) with _ | z | _
      · exact absurd hw hQ
      · exact .inr rfl
      · exact .inl trivial
    rcases this with h | h
    · exact ⟨k + 1, .inl h⟩
    · exact turns_shift (hfrom h)
  · exact hfrom hx
  · obtain ⟨k, hk, hQ⟩ := goes_on (E := E) (Q := fun t => (E.filterTo t).2 ≠ .pending) hx (hR.filterTo (n + 1)) (by
      rintro t ⟨pc, r, m, out, tr⟩ hx hQ
      dsimp only at hx
      subst hx
      simp only [step]
      rcases hw : E.filterTo t with ⟨m', _ | _ | _⟩ <;> rw [hw] at hQ <;> first | rfl | exact absurd (by simp) hQ)
    have hs : after E o (n + (k + 1)) = step E (n + k + 1) (after E o (n + k)) := rfl
    have : ∃ a, Ended (after E o (n + (k + 1))).pc ∨ ∃ r left, (after E o (n + (k + 1))).pc = .send r left a := by
      rw [hs]
      generalize after E o (n + k) = x at hk
      obtain ⟨pc, rd, m, out, tr⟩ := x
      dsimp only at hk
      subst hk
      simp only [step]
      rcases hw : E.filterTo (n + k + 1) with ⟨m', _ | ⟨_ | e, f⟩ | _⟩
      · rw [hw] at hQ; exact absurd rfl hQ
      · exact ⟨_, speak_sends _ _ _ _⟩
      · exact ⟨_, .inr (reply_sends _ _)⟩
      · exact ⟨.next, .inl trivial⟩
    obtain ⟨a, this⟩ := this
    exact turns_shift (hsend' this)
  · obtain ⟨k, hk, hQ⟩ := goes_on (E := E) (Q := fun t => E.filterData t ≠ .pending) hx (hR.filterData (n + 1)) (by
      rintro t ⟨pc, r, m, out, tr⟩ hx hQ
      dsimp only at hx
      subst hx
      simp only [step, Classical.not_not.1 hQ])
    have hs : after E o (n + (k + 1)) = step E (n + k + 1) (after E o (n + k)) := rfl
    have : ∃ a, Ended (after E o (n + (k + 1))).pc ∨ ∃ r left, (after E o (n + (k + 1))).pc = .send r left a := by
      rw [hs]
      generalize after E o (n + k) = x at hk
      obtain ⟨pc, rd, m, out, tr⟩ := x
      dsimp only at hk
      subst hk
      simp only [step]
      rcases hw : E.filterData (n + k + 1) with _ | ⟨_ | e, f⟩ | _
      · exact absurd hw hQ
      · exact ⟨_, speak_sends _ _ _ _⟩
      · exact ⟨_, .inr (reply_sends _ _)⟩
      · exact ⟨.next, .inl trivial⟩
    obtain ⟨a, this⟩ := this
    exact turns_shift (hsend' this)
  · exact turns_handle hR hH (.inl ⟨h, d, hx⟩)
  · exact turns_handle hR hH (.inr ⟨h, d, hx⟩)
  · exact ⟨0, .inl (by show Ended (after E o n).pc; rw [hx]; trivial)⟩
  · exact ⟨0, .inl (by show Ended (after E o n).pc; rw [hx]; trivial)⟩

/-- The session ends if it is answered, its input is finite, and no handler works for ever. -/
theorem ends (hR : Responsive E) {N : Nat} (he : ∀ i, N ≤ i → E.source i = .ready none) {o : List Bytes}
    (hH : ∀ n, ∃ m, n ≤ m ∧ ¬ HandlerWorks (after E o m)) : ∃ n, Ended (after E o n).pc := by
  have key : ∀ c n, stock E.source N (after E o n) ≤ c → ∃ n, Ended (after E o n).pc := by
    intro c
    induction c with
    | zero =>
      intro n hc
      obtain ⟨k, h | ⟨b, h⟩⟩ := turns_any hR hH n
      · exact ⟨_, h⟩
      · rcases (stock_step he (n + k + 1) (after E o (n + k))).2.1 b h with h1 | h1
        · have := stock_after he o n k; omega
        · exact ⟨n + k + 1, h1⟩
    | succ c ih =>
      intro n hc
      obtain ⟨k, h | ⟨b, h⟩⟩ := turns_any hR hH n
      · exact ⟨_, h⟩
      · rcases (stock_step he (n + k + 1) (after E o (n + k))).2.1 b h with h1 | h1
        · refine ih (n + k + 1) ?_
          have := stock_after he o n k
          show stock E.source N (step E (n + k + 1) (after E o (n + k))) ≤ c
          omega
        · exact ⟨n + k + 1, h1⟩
  exact key _ 0 (Nat.le_refl _)

/-! ### Single steps -/

theorem polling_step (t : Nat) {x : State L} {h : List HObs} {d : DS} (hx : x.pc = .polling h d) :
    (∃ a d', (step E t x).pc = .handle (h ++ [.polled a]) d') ∨ ∃ d', (step E t x).pc = .polling h d' := by
  obtain ⟨pc, r, m, o, tr⟩ := x
  dsimp only at hx
  subst hx
  simp only [step]
  rcases d.turn E.source with ⟨_ | a, e⟩
  · exact .inr ⟨_, rfl⟩
  · exact .inl ⟨_, _, rfl⟩

/-- Where the connection is polled. -/
theorem polls_where {t : Nat} {x : State L} (h : listened (step E t x) ≠ listened x) :
    (∃ b, x.pc = .read b) ∨ ∃ hh d, x.pc = .polling hh d := by
  obtain ⟨pc, r, m, o, tr⟩ := x
  cases pc with
  | read b => exact .inl ⟨b, rfl⟩
  | polling hh d => exact .inr ⟨hh, d, rfl⟩
  | send rp cs a =>
    exfalso
    cases cs with
    | nil =>
      simp only [step] at h
      split at h
      · exact h rfl
      · cases a <;> exact h rfl
      · exact h rfl
    | cons c cs =>
      simp only [step] at h
      split at h
      · exact h rfl
      · split at h
        · exact h rfl
        · split at h <;> exact h rfl
  | handle hh d =>
    exfalso
    simp only [step] at h
    split at h
    · exact h rfl
    · exact h rfl
    · split at h <;> exact h rfl
    · split at h
      · exact h rfl
      · rename_i hc
        exact h (complete_polls hc)
    · split at h
      · split at h
        · exact h (speak_listened ..)
        · exact h (refuse_listened ..)
      · exact h rfl
  | _ =>
    exfalso
    simp only [step] at h
    repeat' split at h
    all_goals first
      | exact h rfl
      | exact h (speak_listened ..)
      | exact h (refuse_listened ..)

/-- A method that words a reply has panicked, and nothing was written. -/
theorem speak_unwinds {t : Nat} {hk : Hook} {a : Task.After L} {x : State L} :
    (speak E t hk a x).out = x.out ∧ ((speak E t hk a x).pc = .unwound → E.say hk t = none) := by
  obtain ⟨pc, r, m, o, tr⟩ := x
  unfold speak
  split
  · refine ⟨rfl, fun h => ?_⟩
    obtain ⟨r', left, hr⟩ := reply_sends (L := L) _ a
    dsimp only at h
    rw [hr] at h
    cases h
  · rename_i hs
    exact ⟨rfl, fun _ => hs⟩

theorem dispatch_unwinds {t : Nat} {x : State L} {l : Bytes} :
    (dispatch E t x l).out = x.out ∧ ((dispatch E t x l).pc = .unwound → ∃ hk, E.say hk t = none) := by
  have sp : ∀ hk a (y : State L), y.out = x.out → (speak E t hk a y).out = x.out ∧
      ((speak E t hk a y).pc = .unwound → ∃ hk, E.say hk t = none) :=
    fun hk a y hy => ⟨speak_unwinds.1.trans hy, fun h => ⟨hk, speak_unwinds.2 h⟩⟩
  unfold dispatch
  split <;> (try split) <;> (try split) <;> first | exact sp _ _ _ rfl | exact ⟨rfl, fun h => by cases h⟩

theorem reply_not_unwound (rp : Reply) (a : Task.After L) : (reply rp a : PC L) ≠ .unwound := by
  obtain ⟨r', left, hr⟩ := reply_sends (L := L) rp a
  rw [hr]
  exact fun h => by cases h

theorem unwinds {t : Nat} {x : State L} (h : (step E t x).pc = .unwound) (hn : x.pc ≠ .unwound) :
    PanicsAt E t ∧ (step E t x).out = x.out := by
  obtain ⟨pc, r, m, o, tr⟩ := x
  cases pc with
  | unwound => exact absurd rfl hn
  | over e => cases h
  | read b =>
    simp only [step] at h ⊢
    split at h
    · cases h
    · split at h
      · split at h
        · have := dispatch_unwinds.2 h
          refine ⟨.inl this, dispatch_unwinds.1⟩
        · cases h
      · cases h
    · split at h <;> cases h
  | send rp cs a =>
    exfalso
    cases cs with
    | nil =>
      simp only [step] at h
      split at h
      · cases h
      · cases a <;> cases h
      · cases h
    | cons c cs =>
      simp only [step] at h
      split at h
      · cases h
      · split at h
        · cases h
        · split at h <;> cases h
  | newMail f =>
    simp only [step] at h ⊢
    rcases hw : E.newMail t with _ | z | _ <;> rw [hw] at h <;> dsimp only at h ⊢
    · cases h
    · cases h
    · exact ⟨.inr (.inl hw), rfl⟩
  | filterFrom f =>
    simp only [step] at h ⊢
    rcases hw : E.filterFrom t with _ | ⟨_ | e, f'⟩ | _ <;> rw [hw] at h <;> dsimp only at h ⊢
    · cases h
    · exact ⟨.inl ⟨_, speak_unwinds.2 h⟩, speak_unwinds.1⟩
    · exact absurd h (reply_not_unwound _ _)
    · exact ⟨.inr (.inr (.inl hw)), rfl⟩
  | filterTo to mi =>
    simp only [step] at h ⊢
    rcases hw : E.filterTo t with ⟨m', _ | ⟨_ | e, f'⟩ | _⟩ <;> rw [hw] at h <;> dsimp only at h ⊢
    · cases h
    · exact ⟨.inl ⟨_, speak_unwinds.2 h⟩, speak_unwinds.1⟩
    · exact absurd h (reply_not_unwound _ _)
    · exact ⟨.inr (.inr (.inr (.inl (by rw [hw])))), rfl⟩
  | filterData mi =>
    simp only [step] at h ⊢
    rcases hw : E.filterData t with _ | ⟨_ | e, f'⟩ | _ <;> rw [hw] at h <;> dsimp only at h ⊢
    · cases h
    · exact ⟨.inl ⟨_, speak_unwinds.2 h⟩, speak_unwinds.1⟩
    · exact absurd h (reply_not_unwound _ _)
    · exact ⟨.inr (.inr (.inr (.inr (.inl hw)))), rfl⟩
  | handle hh d =>
    simp only [step] at h ⊢
    rcases hw : E.handleMail t with _ | w | _ <;> rw [hw] at h <;> (try dsimp only at h ⊢)
    · cases h
    · cases w with
      | poll => dsimp only at h; split at h <;> cases h
      | complete => dsimp only at h; split at h <;> cases h
      | done dec =>
        dsimp only at h ⊢
        by_cases hs : d.state = .completed
        · rw [if_pos hs] at h ⊢
          cases dec with
          | accept => exact ⟨.inl ⟨_, speak_unwinds.2 h⟩, speak_unwinds.1⟩
          | reject e => exact absurd h (reply_not_unwound _ _)
        · rw [if_neg hs] at h; cases h
    · exact ⟨.inr (.inr (.inr (.inr (.inr hw)))), rfl⟩
  | polling hh d =>
    simp only [step] at h
    split at h <;> cases h

end Verif.Env
