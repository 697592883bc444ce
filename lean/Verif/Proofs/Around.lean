import Verif.Spec.Around
import Verif.Proofs.Env
import Verif.Proofs.SinkPoll
import Verif.Props.Task
/-
The session with a sink in an arbitrary environment is, step by step, the session with a writer in an arbitrary environment (C126).
-/
namespace Verif.Around
open Spec Env
variable {L : IpLib} {W : Surroundings L} {f : Nat → WriterAns}

/-! ### All but the writer -/

theorem speak_out (t : Nat) (h : Hook) (a : Task.After L) (x : Env.State L) (o : List Bytes) :
    speak (withWriter W f) t h a { x with out := o } = { speak W.others t h a x with out := o } := by
  unfold speak
  rw [show (withWriter W f).say = W.others.say from rfl]
  cases W.others.say h t <;> rfl

theorem dispatch_out (t : Nat) (x : Env.State L) (l : Bytes) (o : List Bytes) :
    dispatch (withWriter W f) t { x with out := o } l = { dispatch W.others t x l with out := o } := by
  obtain ⟨pc, r, m, out, tr⟩ := x
  unfold dispatch
  split
  · split
    · exact speak_out _ _ _ _ _
    · rfl
  · cases m with
    | some m => rfl
    | none => exact speak_out _ _ _ _ _
  · cases m with
    | some m =>
      dsimp only
      split
      · exact speak_out t .dataBeforeRcpt _ ⟨pc, r, none, out, tr⟩ o
      · rfl
    | none => exact speak_out _ _ _ _ _
  · exact speak_out _ _ _ _ _
  · exact speak_out _ _ _ _ _

theorem step_out (t : Nat) (x : Env.State L) (o : List Bytes) (h : ∀ r left a, x.pc ≠ .send r left a) :
    Env.step (withWriter W f) t { x with out := o } = { Env.step W.others t x with out := o } := by
  obtain ⟨pc, r, m, out, tr⟩ := x
  cases pc with
  | send r left a => exact absurd rfl (h r left a)
  | read b =>
    simp only [Env.step, show (withWriter W f).source = W.others.source from rfl]
    split
    · rfl
    · split
      · split
        · exact dispatch_out _ ⟨_, _, _, out, _⟩ _ o
        · rfl
      · rfl
    · split <;> rfl
  | newMail f => simp only [Env.step, withWriter]; split <;> rfl
  | filterFrom g =>
    simp only [Env.step, show (withWriter W f).filterFrom = W.others.filterFrom from rfl]
    split
    · rfl
    · rfl
    · exact speak_out _ _ _ ⟨_, _, _, out, _⟩ o
    · rfl
  | filterTo to mi =>
    simp only [Env.step, show (withWriter W f).filterTo = W.others.filterTo from rfl]
    split
    · rfl
    · rfl
    · exact speak_out _ _ _ ⟨_, _, _, out, _⟩ o
    · rfl
  | filterData mi =>
    simp only [Env.step, show (withWriter W f).filterData = W.others.filterData from rfl]
    split
    · rfl
    · rfl
    · exact speak_out _ _ _ ⟨_, _, _, out, _⟩ o
    · rfl
  | handle h d =>
    simp only [Env.step, show (withWriter W f).handleMail = W.others.handleMail from rfl]
    split
    · rfl
    · rfl
    · split <;> rfl
    · split <;> rfl
    · split
      · split
        · exact speak_out _ _ _ ⟨_, _, _, out, _⟩ o
        · rfl
      · rfl
  | polling h d =>
    simp only [Env.step, show (withWriter W f).source = W.others.source from rfl]
    split <;> rfl
  | over e => rfl
  | unwound => rfl

/-- No reply is finished but by the writer. -/
theorem step_quiet (E : Environment L) (t : Nat) (x : Env.State L) (h : ∀ r left a, x.pc ≠ .send r left a) :
    repliesOf (Env.step E t x).trace = repliesOf x.trace := by
  have add : ∀ (tr : List (Ev L)) (e : Ev L), (∀ r, e ≠ .reply r) → repliesOf (tr ++ [e]) = repliesOf tr := by
    intro tr e he
    have : ∀ a b : List (Ev L), repliesOf (a ++ b) = repliesOf a ++ repliesOf b := by
      intro a b
      induction a with
      | nil => rfl
      | cons e a ih => cases e <;> simp [repliesOf, ih]
    rw [this]
    cases e <;> first | exact absurd rfl (he _) | exact List.append_nil _
  obtain ⟨pc, r, m, out, tr⟩ := x
  cases pc with
  | send r left a => exact absurd rfl (h r left a)
  | read b =>
    simp only [Env.step]
    split
    · rfl
    · split
      · split
        · rw [dispatch_trace]; exact add _ _ (by simp)
        · rfl
      · rfl
    · split <;> rfl
  | _ =>
    simp only [Env.step]
    repeat' split
    all_goals first
      | rfl
      | exact add _ _ (by simp)
      | (rw [(speak_keeps _ _ _ _).1]; exact add _ _ (by simp))

/-! ### The writer that the sink amounts to -/

/-- What the writer answers in step `t`, if the session is at `s` before. -/
def answer (W : Surroundings L) (t : Nat) (s : State L) : WriterAns :=
  match s.x.pc with
  | .send rp left _ =>
    match (Sending.next rp.1 ⟨s.buffered, s.held, left⟩).1 with
    | .panic _ => .ok
    | .start _ => match W.startSend t with | .ok => .ok | .errDropped => .err false | .errAccepted => .err true
    | .ready => match W.pollReady t with | .error => .err false | _ => .pending
    | .flush => match W.pollFlush t with | .ready => .ok | .pending => .pending | .error => .err false
  | _ => .ok

def writer (W : Surroundings L) : Nat → WriterAns
  | 0 => .ok
  | n + 1 => answer W (n + 1) (after W n)

/-- `cs` are the text of the line buffered, and those left. -/
def Tail (code : ReplyCode) (buffered : Option ReplyLine) (left cs : List Bytes) : Prop :=
  match buffered with
  | some l => ∃ t, cs = t :: left ∧ ReplyLine.build code (if left.isEmpty then .yes else .no) t = .ok l
  | none => cs = left

/-- `cs` are the texts of the lines held and buffered, and those left. -/
def Texts (code : ReplyCode) (held buffered : Option ReplyLine) (left cs : List Bytes) : Prop :=
  match held with
  | some l => ∃ t cs', cs = t :: cs' ∧ ReplyLine.build code (if cs'.isEmpty then .yes else .no) t = .ok l ∧ Tail code buffered left cs'
  | none => Tail code buffered left cs

/-- The other session panics next, or at the next line, or has done so. -/
def Doomed (log : List Call) (out : List Bytes) : Env.PC L → Prop
  | .over (.panic .buildUnwrap) => ∃ more, more.length ≤ 1 ∧ out = handed log ++ more
  | .send rp (t :: cs) _ =>
    (∃ l t' cs', cs = t' :: cs' ∧ ReplyLine.build rp.1 (if cs.isEmpty then .yes else .no) t = .ok l ∧
      (∃ e, ReplyLine.build rp.1 (if cs'.isEmpty then .yes else .no) t' = .error e) ∧ out = handed log) ∨
    ((∃ e, ReplyLine.build rp.1 (if cs.isEmpty then .yes else .no) t = .error e) ∧ ∃ more, more.length ≤ 1 ∧ out = handed log ++ more)
  | _ => False

/-- Where the other session is. -/
inductive Rel : State L → Env.State L → Prop
  | send {rp left a b h cs r m o tr log} (ht : Texts rp.1 h b left cs) :
    Rel ⟨⟨.send rp left a, r, m, o, tr⟩, b, h, log⟩ ⟨.send rp cs a, r, m, handed log, tr⟩
  | other {pc r m o tr log} (hp : ∀ r left a, pc ≠ .send r left a) :
    Rel ⟨⟨pc, r, m, o, tr⟩, none, none, log⟩ ⟨pc, r, m, handed log, tr⟩
  | doomed {q r m o out tr b h log} (hd : Doomed log out q) :
    Rel ⟨⟨.over (.panic .buildUnwrap), r, m, o, tr⟩, b, h, log⟩ ⟨q, r, m, out, tr⟩

theorem rel_plain {log : List Call} (x : Env.State L) : Rel ⟨x, none, none, log⟩ { x with out := handed log } := by
  obtain ⟨pc, r, m, o, tr⟩ := x
  by_cases h : ∃ rp left a, pc = .send rp left a
  · obtain ⟨rp, left, a, rfl⟩ := h
    exact .send (cs := left) (show Texts rp.1 none none left left from rfl)
  · exact .other fun rp left a hp => h ⟨rp, left, a, hp⟩

theorem fits (l : ReplyLine) : ¬ l.byteLen < l.sendTo.length := by rw [c19_byte_len]; omega

theorem doomed_step {t : Nat} {q : Env.PC L} {r : AnySource.Reader} {m : Option (MailMeta L)} {out : List Bytes} {tr : List (Ev L)} {log : List Call}
    (hf : f t = .ok) (hd : Doomed log out q) :
    ∃ q' out', Env.step (withWriter W f) t ⟨q, r, m, out, tr⟩ = ⟨q', r, m, out', tr⟩ ∧ Doomed log out' q' := by
  cases q with
  | send rp cs a =>
    cases cs with
    | nil => exact hd.elim
    | cons c cs =>
      rcases hd with ⟨l, t', cs', rfl, hl, he, rfl⟩ | ⟨⟨e, he⟩, hm⟩
      · refine ⟨.send rp (t' :: cs') a, handed log ++ [l.sendTo], ?_, .inr ⟨he, [l.sendTo], by simp, rfl⟩⟩
        simp only [Env.step, hl, if_neg (fits l), withWriter, hf]
      · exact ⟨.over (.panic .buildUnwrap), out, by simp only [Env.step, he], hm⟩
  | over e => exact ⟨_, _, rfl, hd⟩
  | _ => exact hd.elim

/-- The line in front, if the machine has one. -/
theorem next_cases {code : ReplyCode} {b h : Option ReplyLine} {left cs : List Bytes} (ht : Texts code h b left cs) :
    (∃ e y, Sending.next code ⟨b, h, left⟩ = (.panic .buildUnwrap, y) ∧
      ((h = none ∧ ∃ t cs', cs = t :: cs' ∧ ReplyLine.build code (if cs'.isEmpty then .yes else .no) t = .error e) ∨
        ∃ l t t' cs', h = some l ∧ cs = t :: t' :: cs' ∧ ReplyLine.build code (if (t' :: cs').isEmpty then .yes else .no) t = .ok l ∧
          ReplyLine.build code (if cs'.isEmpty then .yes else .no) t' = .error e)) ∨
    (∃ l b' left' t cs', Sending.next code ⟨b, h, left⟩ = (.start l, ⟨b', some l, left'⟩) ∧ h = some l ∧ cs = t :: cs' ∧
      ReplyLine.build code (if cs'.isEmpty then .yes else .no) t = .ok l ∧ Texts code none b' left' cs') ∨
    (∃ l left' t, Sending.next code ⟨b, h, left⟩ = (.ready, ⟨some l, none, left'⟩) ∧ cs = t :: left' ∧
      ReplyLine.build code (if left'.isEmpty then .yes else .no) t = .ok l) ∨
    (Sending.next code ⟨b, h, left⟩ = (.flush, ⟨none, none, []⟩) ∧ cs = [] ∧ h = none) := by
  cases h with
  | none =>
    cases b with
    | none =>
      obtain rfl : cs = left := ht
      cases cs with
      | nil => exact .inr (.inr (.inr ⟨rfl, rfl, rfl⟩))
      | cons t ts =>
        cases hb : ReplyLine.build code (if ts.isEmpty then .yes else .no) t with
        | error e => exact .inl ⟨e, _, by simp only [Sending.next, hb]; rfl, .inl ⟨rfl, t, ts, rfl, hb⟩⟩
        | ok l => exact .inr (.inr (.inl ⟨l, ts, t, by simp only [Sending.next, hb]; rfl, rfl, hb⟩))
    | some l =>
      obtain ⟨t, rfl, hb⟩ := ht
      exact .inr (.inr (.inl ⟨l, left, t, rfl, rfl, hb⟩))
  | some l =>
    obtain ⟨t, cs', rfl, hl, ht⟩ := ht
    cases b with
    | none =>
      obtain rfl : cs' = left := ht
      cases cs' with
      | nil =>
        exact .inr (.inl ⟨l, none, [], t, [], by simp only [Sending.next, if_neg (fits l)], rfl, rfl, hl, rfl⟩)
      | cons t' ts =>
        cases hb : ReplyLine.build code (if ts.isEmpty then .yes else .no) t' with
        | error e => exact .inl ⟨e, _, by simp only [Sending.next, hb]; rfl, .inr ⟨l, t, t', ts, rfl, rfl, hl, hb⟩⟩
        | ok l' =>
          exact .inr (.inl ⟨l, some l', ts, t, t' :: ts, by simp only [Sending.next, hb, if_neg (fits l)], rfl, rfl, hl, t', rfl, hb⟩)
    | some l' =>
      exact .inr (.inl ⟨l, some l', left, t, cs', by simp only [Sending.next, if_neg (fits l)], rfl, rfl, hl, ht⟩)

theorem texts_cons {code : ReplyCode} {l : ReplyLine} {b : Option ReplyLine} {left cs : List Bytes} {t : Bytes}
    (hb : ReplyLine.build code (if cs.isEmpty then .yes else .no) t = .ok l) (ht : Texts code none b left cs) :
    Texts code (some l) b left (t :: cs) := ⟨t, cs, rfl, hb, ht⟩

theorem rel_step {t : Nat} {s : State L} {e : Env.State L} (hf : f t = answer W t s) (h : Rel s e) :
    Rel (step W t s) (Env.step (withWriter W f) t e) := by
  cases h with
  | @other pc r m o tr log hp =>
    have h1 := step_out (W := W) (f := f) t ⟨pc, r, m, o, tr⟩ (handed log) hp
    have h2 : step W t ⟨⟨pc, r, m, o, tr⟩, none, none, log⟩ = ⟨Env.step W.others t ⟨pc, r, m, o, tr⟩, none, none, log⟩ := by
      cases pc <;> first | rfl | exact absurd rfl (hp _ _ _)
    rw [h2]
    dsimp only at h1
    rw [h1]
    exact rel_plain _
  | @doomed q r m o out tr b hh log hd =>
    obtain ⟨q', out', h1, h2⟩ := doomed_step (W := W) (r := r) (m := m) (tr := tr) (t := t) (f := f) hf hd
    rw [h1]
    exact .doomed h2
  | @send rp left a b hh cs r m o tr log ht =>
    have hs : ∀ (d : Doing) (y : Sending), Sending.next rp.1 ⟨b, hh, left⟩ = (d, y) → f t = (match d with
        | .panic _ => .ok
        | .start _ => match W.startSend t with | .ok => .ok | .errDropped => .err false | .errAccepted => .err true
        | .ready => match W.pollReady t with | .error => .err false | _ => .pending
        | .flush => match W.pollFlush t with | .ready => .ok | .pending => .pending | .error => .err false) := by
      intro d y hn
      rw [hf]
      simp only [answer, hn]
    rcases next_cases ht with ⟨e, y, hn, hc⟩ | ⟨l, b', left', c, cs', hn, rfl, rfl, hb, ht'⟩ | ⟨l, left', c, hn, rfl, hb⟩ | ⟨hn, rfl, rfl⟩
    · have hf' := hs _ _ hn
      dsimp only at hf'
      simp only [step, hn]
      rcases hc with ⟨rfl, c, cs', rfl, hb⟩ | ⟨l, c, c', cs', rfl, rfl, hl, hb⟩
      · simp only [Env.step, hb]
        exact .doomed ⟨[], by simp, by simp⟩
      · simp only [Env.step, hl, if_neg (fits l), withWriter, hf']
        exact .doomed (.inr ⟨⟨e, hb⟩, [l.sendTo], by simp, rfl⟩)
    · have hf' := hs _ _ hn
      dsimp only at hf'
      simp only [step, hn, Env.step, hb, if_neg (fits l), withWriter, hf']
      cases W.startSend t with
      | ok =>
        have : handed (log ++ [.start l.sendTo .ok]) = handed log ++ [l.sendTo] := by simp [handed_append, handed]
        rw [← this]
        exact .send ht'
      | errDropped =>
        have : handed (log ++ [.start l.sendTo .errDropped]) = handed log := by simp [handed_append, handed]
        simp only [Bool.false_eq_true, if_false]
        rw [← this]
        exact .other (by simp)
      | errAccepted =>
        have : handed (log ++ [.start l.sendTo .errAccepted]) = handed log ++ [l.sendTo] := by simp [handed_append, handed]
        simp only [if_true]
        rw [← this]
        exact .other (by simp)
    · have hf' := hs _ _ hn
      dsimp only at hf'
      have hlog : ∀ a, handed (log ++ [.ready a]) = handed log := by intro a; simp [handed_append, handed]
      simp only [step, hn, Env.step, hb, if_neg (fits l), withWriter, hf']
      cases W.pollReady t with
      | ready => dsimp only; rw [← hlog .ready]; exact .send (texts_cons hb rfl)
      | pending => dsimp only; rw [← hlog .pending]; exact .send ⟨c, rfl, hb⟩
      | error =>
        simp only [Bool.false_eq_true, if_false]
        rw [← hlog .error]
        exact .other (by simp)
    · have hf' := hs _ _ hn
      dsimp only at hf'
      have hlog : ∀ a, handed (log ++ [.flush a]) = handed log := by intro a; simp [handed_append, handed]
      simp only [step, hn, Env.step, withWriter, hf']
      cases W.pollFlush t with
      | ready =>
        dsimp only
        rw [← hlog .ready]
        cases a <;> exact rel_plain _
      | pending => dsimp only; rw [← hlog .pending]; exact .send rfl
      | error => dsimp only; rw [← hlog .error]; exact .other (by simp)

theorem rel_after (W : Surroundings L) (n : Nat) : Rel (after W n) (Env.after (withWriter W (writer W)) [] n) := by
  induction n with
  | zero =>
    have h := speak_out (W := W) (f := writer W) 0 .welcomeBanner .next ⟨.read [], ⟨0, none⟩, none, [], []⟩ []
    show Rel ⟨Env.init W.others [], none, none, []⟩ (Env.init (withWriter W (writer W)) [])
    unfold Env.init
    dsimp only at h
    rw [h]
    exact rel_plain _
  | succ n ih => exact rel_step (f := writer W) rfl ih

/-! ### What the sink is told -/

def wires (s : State L) : List Bytes := (repliesOf s.x.trace).flatMap Server.wire

def Good (s : State L) : Prop :=
  match s.x.pc with
  | .send .. => SinkPoll.Base (wires s) s.log ∧ (s.held ≠ none → [.ready .ready] <:+ s.log)
  | .over e => SinkContract s.log ∧ flushed s.log = wires s ∧ (e = .err ∨ e = .panic .buildUnwrap ∨ handed s.log = flushed s.log)
  | _ => SinkPoll.Base (wires s) s.log ∧ handed s.log = flushed s.log

theorem good_plain {x : Env.State L} {log : List Call} (h1 : SinkPoll.Base ((repliesOf x.trace).flatMap Server.wire) log)
    (h2 : handed log = flushed log) : Good ⟨x, none, none, log⟩ := by
  obtain ⟨pc, r, m, o, tr⟩ := x
  unfold Good
  cases pc with
  | send rp left a => exact ⟨h1, fun h => absurd rfl h⟩
  | over e => exact ⟨h1.contract, h1.flushed, .inr (.inr h2)⟩
  | _ => exact ⟨h1, h2⟩

/-- In a place where nothing is being sent, all replies have been handed over. -/
theorem rel_handed {s : State L} {e : Env.State L} (h : Rel s e) (hd : Due [] e)
    (hp : ∀ r left a, s.x.pc ≠ .send r left a) (ho : ∀ r, s.x.pc ≠ .over r) : handed s.log = wires s := by
  cases h with
  | send ht => exact absurd rfl (hp _ _ _)
  | doomed hd => exact absurd rfl (ho _)
  | @other pc r m o tr log =>
    unfold Due at hd
    dsimp only at ho hp
    unfold wires
    rw [← outputOf_flat]
    cases pc with
    | send r l a => exact absurd rfl (hp _ _ _)
    | over e => exact absurd rfl (ho _)
    | _ => exact hd

theorem good_step {t : Nat} {s : State L} {e e' : Env.State L} (hr : Rel s e) (hr' : Rel (step W t s) e') (hd : Due [] e') (h : Good s) :
    Good (step W t s) := by
  cases hr with
  | @other pc r m o tr log hp =>
    by_cases ho : ∃ q, pc = .over q
    · obtain ⟨q, rfl⟩ := ho; exact h
    · have h2 : step W t ⟨⟨pc, r, m, o, tr⟩, none, none, log⟩ = ⟨Env.step W.others t ⟨pc, r, m, o, tr⟩, none, none, log⟩ := by
        cases pc <;> first | rfl | exact absurd rfl (hp _ _ _)
      have h3 : SinkPoll.Base (wires ⟨⟨pc, r, m, o, tr⟩, none, none, log⟩) log ∧ handed log = flushed log := by
        unfold Good at h
        cases pc with
        | send r l a => exact absurd rfl (hp _ _ _)
        | over q => exact absurd ⟨q, rfl⟩ ho
        | _ => exact h
      rw [h2]
      refine good_plain ?_ h3.2
      rw [step_quiet _ _ _ hp]
      exact h3.1
  | doomed hd' => exact h
  | @send rp left a b hh cs r m o tr log ht =>
    obtain ⟨h1, h2⟩ := h
    have hcon : ∀ {c : Call}, (∀ item r, c = .start item r → [.ready .ready] <:+ log) → SinkContract (log ++ [c]) :=
      fun hc => h1.contract.snoc h1.nofail hc
    have hflu : ∀ {c : Call}, c ≠ .flush .ready → flushed (log ++ [c]) = flushed log := fun hc => flushed_other _ hc
    have hw : (repliesOf (tr ++ [.writeError])).flatMap Server.wire = (repliesOf tr).flatMap Server.wire := by
      rw [← outputOf_flat, ← outputOf_flat, Server.outputOf_append]
      exact List.append_nil _
    rcases next_cases ht with ⟨e, y, hn, hc⟩ | ⟨l, b', left', c, cs', hn, rfl, rfl, hb, ht'⟩ | ⟨l, left', c, hn, rfl, hb⟩ | ⟨hn, rfl, rfl⟩
    · simp only [step, hn]
      exact ⟨h1.contract, h1.flushed, .inr (.inl rfl)⟩
    · simp only [step, hn]
      have hroom := h2 (by simp)
      have hst : ∀ a, SinkContract (log ++ [.start l.sendTo a]) := fun a => hcon fun _ _ _ => hroom
      cases W.startSend t with
      | ok => exact ⟨h1.snoc (by simp [Call.Failed]) (by simp) (fun _ _ _ => hroom), fun h => absurd rfl h⟩
      | errDropped => exact ⟨hst _, by rw [hflu (by simp)]; exact h1.flushed.trans hw.symm, .inl rfl⟩
      | errAccepted => exact ⟨hst _, by rw [hflu (by simp)]; exact h1.flushed.trans hw.symm, .inl rfl⟩
    · simp only [step, hn]
      cases W.pollReady t with
      | ready => exact ⟨h1.snoc (by simp [Call.Failed]) (by simp) (by simp), fun _ => List.suffix_append _ _⟩
      | pending => exact ⟨h1.snoc (by simp [Call.Failed]) (by simp) (by simp), fun h => absurd rfl h⟩
      | error => exact ⟨hcon (by simp), by rw [hflu (by simp)]; exact h1.flushed.trans hw.symm, .inl rfl⟩
    · simp only [step, hn] at hr' ⊢
      cases hpf : W.pollFlush t with
      | ready =>
        simp only [hpf] at hr' ⊢
        have hres : ∀ (x : Env.State L), (∀ r left b, (resume x a).pc ≠ .send r left b) ∧ (∀ r, (resume x a).pc ≠ .over r) := by
          intro x; cases a <;> exact ⟨fun _ _ _ h => (by cases h), fun _ h => (by cases h)⟩
        have hall := rel_handed hr' hd (hres _).1 (hres _).2
        have hfl := flushed_ready log
        have hh : handed (log ++ [.flush .ready]) = handed log := by simp [handed_append, handed]
        refine good_plain ⟨hcon (by simp), h1.nofail.snoc (by simp [Call.Failed]), ?_⟩ (by rw [hfl, hh])
        rw [hfl, ← hh]
        exact hall
      | pending => exact ⟨h1.snoc (by simp [Call.Failed]) (by simp) (by simp), fun h => absurd rfl h⟩
      | error => exact ⟨hcon (by simp), by rw [hflu (by simp)]; exact h1.flushed.trans hw.symm, .inl rfl⟩

theorem good_after (W : Surroundings L) (n : Nat) : Good (after W n) := by
  induction n with
  | zero =>
    refine good_plain ?_ rfl
    rw [show (repliesOf (Env.init W.others []).trace) = [] from by
      unfold Env.init; rw [(speak_keeps _ _ _ _).1]; rfl]
    exact ⟨⟨by simp, by simp⟩, by simp [NoFail], rfl⟩
  | succ n ih => exact good_step (rel_after W n) (rel_after W (n + 1)) (due_after [] (n + 1)) ih

/-! ### The poll of `SendAll`, call by call -/

section
variable {σ : Type} (R : RawSink σ) (code : ReplyCode)

/-- The calls end as the poll does. -/
def Agree (o : Option (PollRes × Sending × Raw σ)) (p : PollRes × SendAll σ) : Prop :=
  ∃ y, o = some (p.1, y, p.2.writer.sink) ∧ (p.1 = .pending → y = ⟨p.2.buffered, p.2.writer.state, p.2.left⟩)

theorem try_agrees {left : List Bytes} (ih : ∀ w : With σ, ∃ k, Agree (callByCall R code k ⟨none, w.state, left⟩ w.sink) (sendAllLoop R code left w))
    (l : ReplyLine) (w : With σ) :
    ∃ k, Agree (callByCall R code k ⟨some l, w.state, left⟩ w.sink)
      (match trySend R l left w with | (.ready, y) => sendAllLoop R code y.left y.writer | (a, y) => (a, y)) := by
  have empty : ∀ s : Raw σ, ∃ k, Agree (callByCall R code k ⟨some l, none, left⟩ s)
      (match trySend R l left ⟨s, none⟩ with | (.ready, y) => sendAllLoop R code y.left y.writer | (a, y) => (a, y)) := by
    intro s
    cases hp : (R.pollReady s.st).1 with
    | ready =>
      obtain ⟨k, hk⟩ := ih ⟨⟨(R.pollReady s.st).2, s.log ++ [.ready .ready]⟩, some l⟩
      refine ⟨k + 1, ?_⟩
      simpa [callByCall, Sending.next, trySend, With.pollReady, With.poll, Raw.pollReady, hp, Ans.res, With.startSend] using hk
    | pending =>
      refine ⟨1, ⟨some l, none, left⟩, ?_, ?_⟩ <;>
        simp [callByCall, Sending.next, trySend, With.pollReady, With.poll, Raw.pollReady, hp, Ans.res]
    | error =>
      refine ⟨1, ⟨some l, none, left⟩, ?_, ?_⟩ <;>
        simp [callByCall, Sending.next, trySend, With.pollReady, With.poll, Raw.pollReady, hp, Ans.res]
  obtain ⟨s, st⟩ := w
  cases st with
  | none => exact empty s
  | some h =>
    have hfit := fits h
    cases hp : (R.startSend s.st h.sendTo).1 with
    | ok =>
      obtain ⟨k, hk⟩ := empty ⟨(R.startSend s.st h.sendTo).2, s.log ++ [.start h.sendTo .ok]⟩
      refine ⟨k + 1, ?_⟩
      have e1 : callByCall R code (k + 1) ⟨some l, some h, left⟩ s =
          callByCall R code k ⟨some l, none, left⟩ ⟨(R.startSend s.st h.sendTo).2, s.log ++ [.start h.sendTo .ok]⟩ := by
        simp [callByCall, Sending.next, Raw.startSend, hp, if_neg hfit]
      have e2 : trySend R l left ⟨s, some h⟩ = trySend R l left ⟨⟨(R.startSend s.st h.sendTo).2, s.log ++ [.start h.sendTo .ok]⟩, none⟩ := by
        simp [trySend, With.pollReady, With.poll, Raw.startSend, hp, if_neg hfit]
      rw [e1, e2]
      exact hk
    | errDropped =>
      refine ⟨1, ⟨some l, some h, left⟩, ?_, ?_⟩ <;>
        simp [callByCall, Sending.next, trySend, With.pollReady, With.poll, Raw.startSend, hp, if_neg hfit]
    | errAccepted =>
      refine ⟨1, ⟨some l, some h, left⟩, ?_, ?_⟩ <;>
        simp [callByCall, Sending.next, trySend, With.pollReady, With.poll, Raw.startSend, hp, if_neg hfit]

theorem loop_agrees (left : List Bytes) (w : With σ) :
    ∃ k, Agree (callByCall R code k ⟨none, w.state, left⟩ w.sink) (sendAllLoop R code left w) := by
  induction left generalizing w with
  | nil =>
    have empty : ∀ s : Raw σ, Agree (callByCall R code 1 ⟨none, none, []⟩ s) (sendAllLoop R code [] ⟨s, none⟩) := by
      intro s
      refine ⟨⟨none, none, []⟩, ?_, ?_⟩ <;>
        simp [callByCall, Sending.next, sendAllLoop, With.pollFlush, With.poll, Raw.pollFlush]
    obtain ⟨s, st⟩ := w
    cases st with
    | none => exact ⟨1, empty s⟩
    | some h =>
      have hfit := fits h
      cases hp : (R.startSend s.st h.sendTo).1 with
      | ok =>
        refine ⟨2, ?_⟩
        have hk := empty ⟨(R.startSend s.st h.sendTo).2, s.log ++ [.start h.sendTo .ok]⟩
        have e1 : callByCall R code 2 ⟨none, some h, []⟩ s =
            callByCall R code 1 ⟨none, none, []⟩ ⟨(R.startSend s.st h.sendTo).2, s.log ++ [.start h.sendTo .ok]⟩ := by
          rw [callByCall]; simp [Sending.next, Raw.startSend, hp, if_neg hfit]
        have e2 : sendAllLoop R code [] ⟨s, some h⟩ = sendAllLoop R code [] ⟨⟨(R.startSend s.st h.sendTo).2, s.log ++ [.start h.sendTo .ok]⟩, none⟩ := by
          simp [sendAllLoop, With.pollFlush, With.poll, Raw.startSend, hp, if_neg hfit]
        rw [e1, e2]
        exact hk
      | errDropped =>
        refine ⟨1, ⟨none, some h, []⟩, ?_, ?_⟩ <;>
          simp [callByCall, Sending.next, sendAllLoop, With.pollFlush, With.poll, Raw.startSend, hp, if_neg hfit]
      | errAccepted =>
        refine ⟨1, ⟨none, some h, []⟩, ?_, ?_⟩ <;>
          simp [callByCall, Sending.next, sendAllLoop, With.pollFlush, With.poll, Raw.startSend, hp, if_neg hfit]
  | cons t ts ih =>
    cases hb : ReplyLine.build code (if ts.isEmpty then .yes else .no) t with
    | error e =>
      refine ⟨1, ⟨none, w.state, t :: ts⟩, ?_, ?_⟩ <;> rw [sendAllLoop] <;> simp only [hb]
      · simp only [callByCall, Sending.next, hb]
      · simp
    | ok l =>
      obtain ⟨k, hk⟩ := try_agrees R code ih l w
      refine ⟨k, ?_⟩
      have e1 : callByCall R code k ⟨none, w.state, t :: ts⟩ w.sink = callByCall R code k ⟨some l, w.state, ts⟩ w.sink := by
        cases k with
        | zero => rfl
        | succ k =>
          have : Sending.next code ⟨none, w.state, t :: ts⟩ = Sending.next code ⟨some l, w.state, ts⟩ := by
            simp only [Sending.next, hb]
          rw [callByCall, callByCall, this]
      have e2 : sendAllLoop R code (t :: ts) w =
          (match trySend R l ts w with | (.ready, y) => sendAllLoop R code y.left y.writer | (a, y) => (a, y)) := by
        rw [sendAllLoop]
        simp only [hb]
        have : (trySend R l ts w).2.left = ts := by
          unfold trySend
          split <;> rfl
        rcases h : trySend R l ts w with ⟨a, y⟩
        rw [h] at this
        dsimp only at this
        subst this
        cases a <;> rfl
      rw [e1, e2]
      exact hk

end

/-! ### The sink answers -/

theorem ready_again {code : ReplyCode} {l : ReplyLine} {left : List Bytes} :
    Sending.next code ⟨some l, none, left⟩ = (.ready, ⟨some l, none, left⟩) := rfl

theorem starts {code : ReplyCode} {l : ReplyLine} {left : List Bytes} :
    (∃ p y, Sending.next code ⟨none, some l, left⟩ = (.panic p, y)) ∨ ∃ y, Sending.next code ⟨none, some l, left⟩ = (.start l, y) := by
  unfold Sending.next
  cases left with
  | nil => simp [if_neg (fits l)]
  | cons t ts => dsimp only; split <;> simp [if_neg (fits l)]

theorem not_pending_of {W : Surroundings L} {n : Nat} (h : ∀ rp left a, (after W n).x.pc = .send rp left a →
    (∃ p y, Sending.next rp.1 ⟨(after W n).buffered, (after W n).held, left⟩ = (.panic p, y)) ∨
    (∃ l y, Sending.next rp.1 ⟨(after W n).buffered, (after W n).held, left⟩ = (.start l, y)) ∨
    (∃ y, Sending.next rp.1 ⟨(after W n).buffered, (after W n).held, left⟩ = (.ready, y) ∧ W.pollReady (n + 1) = .error) ∨
    (∃ y, Sending.next rp.1 ⟨(after W n).buffered, (after W n).held, left⟩ = (.flush, y) ∧ W.pollFlush (n + 1) ≠ .pending)) :
    writer W (n + 1) ≠ .pending := by
  simp only [writer, answer]
  cases hp : (after W n).x.pc with
  | send rp left a =>
    dsimp only
    rcases h rp left a hp with ⟨p, y, hn⟩ | ⟨l, y, hn⟩ | ⟨y, hn, he⟩ | ⟨y, hn, he⟩ <;> rw [hn] <;> dsimp only
    · simp
    · cases W.startSend (n + 1) <;> simp
    · rw [he]; simp
    · revert he; cases W.pollFlush (n + 1) <;> simp
  | _ => simp

theorem writer_answers {W : Surroundings L} (hR : Answering W) (n : Nat) : ∃ t, n ≤ t ∧ writer W t ≠ .pending := by
  by_cases hs : ∃ rp left a, (after W n).x.pc = .send rp left a
  case neg => exact ⟨n + 1, by omega, not_pending_of fun rp left a hp => absurd ⟨rp, left, a, hp⟩ hs⟩
  obtain ⟨rp, left, a, hp⟩ := hs
  have key : ∀ {left' b h d y}, (after W n).x.pc = .send rp left' a → (after W n).buffered = b → (after W n).held = h →
      Sending.next rp.1 ⟨b, h, left'⟩ = (d, y) → (after W n) = ⟨{ (after W n).x with pc := .send rp left' a }, b, h, (after W n).log⟩ := by
    intro left' b h d y h1 h2 h3 _
    rw [← h1, ← h2, ← h3]
  have hrel := rel_after W n
  have htexts : ∃ cs, Texts rp.1 (after W n).held (after W n).buffered left cs := by
    generalize after W n = s at hrel hp
    generalize Env.after (withWriter W (writer W)) [] n = e at hrel
    cases hrel with
    | send ht => dsimp only at hp ⊢; cases hp; exact ⟨_, ht⟩
    | other h => exact absurd hp (h _ _ _)
    | doomed => cases hp
  obtain ⟨cs, ht⟩ := htexts
  rcases next_cases ht with ⟨e, y, hn, _⟩ | ⟨l, b', left', c, cs', hn, _⟩ | ⟨l, left', c, hn, _, hb⟩ | ⟨hn, _, _⟩
  · exact ⟨n + 1, by omega, not_pending_of fun rp' left' a' hp' => by
      rw [hp] at hp'; cases hp'; exact .inl ⟨_, _, hn⟩⟩
  · exact ⟨n + 1, by omega, not_pending_of fun rp' left' a' hp' => by
      rw [hp] at hp'; cases hp'; exact .inr (.inl ⟨_, _, hn⟩)⟩
  · obtain ⟨t, ht1, ht2⟩ := hR.pollReady (n + 1)
    obtain ⟨k, hk1, hk2⟩ := Env.first (P := fun t => W.pollReady t ≠ .pending) ht1 ht2
    -- the state waits for room
    have wait : ∀ j, j ≤ k → ∃ left₁, (after W (n + j)).x.pc = .send rp left₁ a ∧
        Sending.next rp.1 ⟨(after W (n + j)).buffered, (after W (n + j)).held, left₁⟩ = (.ready, ⟨some l, none, left'⟩) := by
      intro j
      induction j with
      | zero => intro _; exact ⟨left, hp, hn⟩
      | succ j ih =>
        intro hj
        obtain ⟨left₁, h1, h2⟩ := ih (by omega)
        have hpend : W.pollReady (n + j + 1) = .pending := by
          have := hk2 j (by omega)
          rw [show n + 1 + j = n + j + 1 by omega] at this
          exact Classical.byContradiction this
        refine ⟨left', ?_, ?_⟩
        all_goals
          rw [show n + (j + 1) = n + j + 1 by omega, after]
          simp only [step, h1, h2, hpend]
        rfl
    obtain ⟨left₁, h1, h2⟩ := wait k (Nat.le_refl _)
    rw [show n + 1 + k = n + k + 1 by omega] at hk1
    cases hr : W.pollReady (n + k + 1) with
    | pending => exact absurd hr hk1
    | error =>
      exact ⟨n + k + 1, by omega, not_pending_of fun rp' left'' a' hp' => by
        rw [h1] at hp'; cases hp'; exact .inr (.inr (.inl ⟨_, h2, hr⟩))⟩
    | ready =>
      refine ⟨n + k + 1 + 1, by omega, not_pending_of fun rp' left'' a' hp' => ?_⟩
      have hst : after W (n + k + 1) = ⟨{ (after W (n + k)).x with pc := .send rp left' a }, none, some l,
          (after W (n + k)).log ++ [.ready .ready]⟩ := by
        rw [after]
        simp only [step, h1, h2, hr]
      rw [hst] at hp' ⊢
      cases hp'
      rcases starts (code := rp.1) (l := l) (left := left') with ⟨p, y, h⟩ | ⟨y, h⟩
      · exact .inl ⟨p, y, h⟩
      · exact .inr (.inl ⟨l, y, h⟩)
  · obtain ⟨t, ht1, ht2⟩ := hR.pollFlush (n + 1)
    obtain ⟨k, hk1, hk2⟩ := Env.first (P := fun t => W.pollFlush t ≠ .pending) ht1 ht2
    have wait : ∀ j, j ≤ k → ∃ left₁, (after W (n + j)).x.pc = .send rp left₁ a ∧
        Sending.next rp.1 ⟨(after W (n + j)).buffered, (after W (n + j)).held, left₁⟩ = (.flush, ⟨none, none, []⟩) := by
      intro j
      induction j with
      | zero => intro _; exact ⟨left, hp, hn⟩
      | succ j ih =>
        intro hj
        obtain ⟨left₁, h1, h2⟩ := ih (by omega)
        have hpend : W.pollFlush (n + j + 1) = .pending := by
          have := hk2 j (by omega)
          rw [show n + 1 + j = n + j + 1 by omega] at this
          exact Classical.byContradiction this
        refine ⟨[], ?_, ?_⟩
        all_goals
          rw [show n + (j + 1) = n + j + 1 by omega, after]
          simp only [step, h1, h2, hpend]
        rfl
    obtain ⟨left₁, h1, h2⟩ := wait k (Nat.le_refl _)
    rw [show n + 1 + k = n + k + 1 by omega] at hk1
    exact ⟨n + k + 1, by omega, not_pending_of fun rp' left'' a' hp' => by
      rw [h1] at hp'; cases hp'; exact .inr (.inr (.inr ⟨_, h2, hk1⟩))⟩

end Verif.Around
