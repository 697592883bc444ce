import Verif.Spec.Server
import Verif.Props.Reply
import Verif.Props.Lines
import Verif.Props.Data
import Verif.Proofs.DataSink
/-
The server model refines the dialogue specification.
-/
namespace Verif
open Spec

namespace SM
variable {W α β : Type}

@[simp] theorem pure_eq (a : α) (w : W) : (Pure.pure a : SM W α) w = (.ok a, w) := rfl
@[simp] theorem get_eq (w : W) : (get : SM W W) w = (.ok w, w) := rfl
@[simp] theorem modify_eq (f : W → W) (w : W) : modify f w = (.ok (), f w) := rfl
@[simp] theorem panic_eq (p : Panic) (w : W) : (panic p : SM W α) w = (.panic p, w) := rfl
@[simp] theorem running_eq (w : W) : (running : SM W α) w = (.running, w) := rfl

theorem bind_ok {m : SM W α} {f : α → SM W β} {w w' : W} {a : α} (h : m w = (.ok a, w')) :
    (m >>= f) w = f a w' := by
  show bind m f w = _
  simp [bind, h]

theorem bind_err {m : SM W α} {f : α → SM W β} {w w' : W} (h : m w = (.err, w')) :
    (m >>= f) w = (.err, w') := by
  show bind m f w = _
  simp [bind, h]

theorem bind_panic {m : SM W α} {f : α → SM W β} {w w' : W} {p} (h : m w = (.panic p, w')) :
    (m >>= f) w = (.panic p, w') := by
  show bind m f w = _
  simp [bind, h]

theorem bind_running {m : SM W α} {f : α → SM W β} {w w' : W} (h : m w = (.running, w')) :
    (m >>= f) w = (.running, w') := by
  show bind m f w = _
  simp [bind, h]

@[simp] theorem get_bind (f : W → SM W β) (w : W) : (get >>= f) w = f w w := rfl
@[simp] theorem modify_bind (g : W → W) (f : Unit → SM W β) (w : W) : (modify g >>= f) w = f () (g w) := rfl
@[simp] theorem pure_bind' (a : α) (f : α → SM W β) : ((Pure.pure a : SM W α) >>= f) = f a := rfl
@[simp] theorem panic_bind (p : Panic) (f : α → SM W β) (w : W) :
    ((panic p : SM W α) >>= f) w = (.panic p, w) := rfl
@[simp] theorem bind_assoc' {γ : Type} (m : SM W α) (f : α → SM W β) (g : β → SM W γ) :
    (m >>= f) >>= g = m >>= fun a => f a >>= g := by
  funext w
  show bind (bind m f) g w = bind m (fun a => bind (f a) g) w
  unfold bind
  rcases m w with ⟨r, w'⟩
  cases r <;> rfl

end SM

namespace Server
variable {L : IpLib} {S U : Type}

/-- What is remembered between lines. -/
def _root_.Verif.World.st (w : World L S U) : SState L S U := ⟨w.cfg, w.conn, w.mail⟩

@[simp] theorem emit_eq (e : Ev L) (w : World L S U) :
    emit e w = (.ok (), { w with trace := w.trace ++ [e] }) := rfl
@[simp] theorem emit_bind {β : Type} (e : Ev L) (f : Unit → M L S U β) (w : World L S U) :
    (emit e >>= f) w = f () { w with trace := w.trace ++ [e] } := rfl
@[simp] theorem setMail_eq (m) (w : World L S U) : setMail m w = (.ok (), { w with mail := m }) := rfl
@[simp] theorem setMail_bind {β : Type} (m) (f : Unit → M L S U β) (w : World L S U) :
    (setMail m >>= f) w = f () { w with mail := m } := rfl

/-! ### Sending replies -/

theorem flush_cases (w : World L S U) :
    (∃ wr, flush w = (.ok (), { w with writer := wr }) ∧ wr.out = w.writer.out) ∨
    (∃ wr, flush w = (.err, { w with writer := wr, trace := w.trace ++ [.writeError] }) ∧
      wr.out = w.writer.out) := by
  obtain ⟨rd, ⟨out, plan⟩, s, u, m, tr⟩ := w
  match plan with
  | [] => left; exact ⟨_, rfl, rfl⟩
  | .ok :: p => left; exact ⟨_, rfl, rfl⟩
  | .errDropped :: p => right; exact ⟨_, rfl, rfl⟩
  | .errAccepted :: p => right; exact ⟨_, rfl, rfl⟩

theorem writeLine_cases (l : ReplyLine) (w : World L S U) :
    (∃ wr, writeLine l w = (.ok (), { w with writer := wr }) ∧ wr.out = w.writer.out ++ [l.sendTo]) ∨
    (∃ wr, writeLine l w = (.err, { w with writer := wr, trace := w.trace ++ [.writeError] }) ∧
      (wr.out = w.writer.out ∨ wr.out = w.writer.out ++ [l.sendTo])) := by
  unfold writeLine
  have h0 : ¬ l.byteLen < l.sendTo.length := by rw [c19_byte_len]; omega
  rw [if_neg h0]
  rcases BSink.send_cases w.writer l.sendTo with ⟨s, h1, h2⟩ | ⟨s, h1, h2⟩ <;> simp only [h1]
  · left; exact ⟨s, rfl, h2⟩
  · right; exact ⟨s, rfl, h2⟩

theorem replyLines_cons (code : ReplyCode) (t : Bytes) (ts : List Bytes) :
    replyLines code (t :: ts) =
      match (ReplyLine.build code (if ts.isEmpty then .yes else .no) t).toOption with
      | none => none
      | some l => (replyLines code ts).map (l :: ·) := by
  cases ts with
  | nil =>
    simp only [replyLines, List.isEmpty_nil, if_true]
    cases (ReplyLine.build code .yes t).toOption <;> rfl
  | cons a b => simp only [replyLines]; rfl

theorem sendChunks_cases (code : ReplyCode) (cs : List Bytes) (w : World L S U) :
    (∃ ls wr, replyLines code cs = some ls ∧ sendChunks code cs w = (.ok (), { w with writer := wr }) ∧
      wr.out = w.writer.out ++ ls.map (·.sendTo)) ∨
    (∃ wr new, sendChunks code cs w = (.err, { w with writer := wr, trace := w.trace ++ [.writeError] }) ∧
      wr.out = w.writer.out ++ new ∧ ∀ ls, replyLines code cs = some ls → new <+: ls.map (·.sendTo)) ∨
    (∃ wr, replyLines code cs = none ∧ sendChunks code cs w = (.panic .buildUnwrap, { w with writer := wr })) := by
  induction cs generalizing w with
  | nil =>
    rcases flush_cases w with ⟨wr, h1, h2⟩ | ⟨wr, h1, h2⟩
    · left; exact ⟨[], wr, rfl, h1, by simp [h2]⟩
    · right; left; exact ⟨wr, [], h1, by simp [h2], by simp [replyLines]⟩
  | cons t ts ih =>
    rw [replyLines_cons]
    unfold sendChunks
    cases hb : ReplyLine.build code (if ts.isEmpty then .yes else .no) t with
    | error e => right; right; exact ⟨w.writer, rfl, rfl⟩
    | ok l =>
      simp only [Except.toOption]
      rcases writeLine_cases l w with ⟨wr, h1, h2⟩ | ⟨wr, h1, h2⟩
      · rw [SM.bind_ok h1]
        rcases ih { w with writer := wr } with ⟨ls, wr2, k1, k2, k3⟩ | ⟨wr2, new, k1, k2, k3⟩ | ⟨wr2, k1, k2⟩
        · left
          refine ⟨l :: ls, wr2, by simp [k1], k2, ?_⟩
          simp [k3, h2]
        · right; left
          refine ⟨wr2, l.sendTo :: new, k1, by simp [k2, h2], ?_⟩
          intro ls hls
          cases hr : replyLines code ts with
          | none => simp [hr] at hls
          | some ls' =>
            simp [hr] at hls
            subst hls
            obtain ⟨x, hx⟩ := k3 ls' hr
            exact ⟨x, by simp [← hx]⟩
        · right; right
          exact ⟨wr2, by simp [k1], k2⟩
      · rw [SM.bind_err h1]
        right; left
        rcases h2 with h2 | h2
        · exact ⟨wr, [], rfl, by simp [h2], by simp⟩
        · refine ⟨wr, [l.sendTo], rfl, h2, ?_⟩
          intro ls hls
          cases hr : replyLines code ts with
          | none => simp [hr] at hls
          | some ls' =>
            simp [hr] at hls
            subst hls
            exact ⟨ls'.map (·.sendTo), rfl⟩

/-- The lines a reply is written as. -/
def wire (r : Reply) : List Bytes := ((Verif.sendReply r.1 r.2).getD []).map (·.sendTo)

theorem sendReply_cases (r : Reply) (w : World L S U) :
    (∃ wr, Sendable r ∧ sendReply r w = (.ok (), { w with writer := wr, trace := w.trace ++ [.reply r] }) ∧
      wr.out = w.writer.out ++ wire r) ∨
    (∃ wr new, sendReply r w = (.err, { w with writer := wr, trace := w.trace ++ [.writeError] }) ∧
      wr.out = w.writer.out ++ new ∧ (Sendable r → new <+: wire r)) ∨
    (∃ wr, ¬ Sendable r ∧ sendReply r w = (.panic .buildUnwrap, { w with writer := wr })) := by
  obtain ⟨cs, hcs, _⟩ := c24_chunks r.2 ReplyLine.maxLen (by decide)
  have hsr : Verif.sendReply r.1 r.2 = replyLines r.1 cs := by simp [Verif.sendReply, hcs]
  have hsend : Sendable r ↔ replyLines r.1 cs ≠ none := by
    rw [← hsr, Ne, c25_panics_iff]
    constructor
    · rintro h ⟨b, hb, hb'⟩; exact hb' (h b hb)
    · intro h b hb
      exact Classical.byContradiction fun h' => h ⟨b, hb, h'⟩
  unfold sendReply
  simp only [hcs]
  rcases sendChunks_cases r.1 cs w with ⟨ls, wr, k1, k2, k3⟩ | ⟨wr, new, k1, k2, k3⟩ | ⟨wr, k1, k2⟩
  · left
    refine ⟨wr, by rw [hsend, k1]; simp, ?_, ?_⟩
    · rw [SM.bind_ok k2]; rfl
    · rw [k3, wire, hsr, k1]; rfl
  · right; left
    refine ⟨wr, new, by rw [SM.bind_err k1], k2, ?_⟩
    intro hs
    rw [hsend] at hs
    obtain ⟨ls, hls⟩ := Option.ne_none_iff_exists'.1 hs
    rw [wire, hsr, hls]
    exact k3 ls hls
  · right; right
    exact ⟨wr, by rw [hsend, k1]; simp, by rw [SM.bind_panic k2]⟩

theorem writeLine_out (l : ReplyLine) (w : World L S U) :
    ∃ new, (writeLine l w).2.writer.out = w.writer.out ++ new := by
  rcases writeLine_cases l w with ⟨wr, h1, h2⟩ | ⟨wr, h1, h2⟩ <;> rw [h1]
  · exact ⟨_, h2⟩
  · rcases h2 with h2 | h2
    · exact ⟨[], by simp [h2]⟩
    · exact ⟨_, h2⟩

theorem sendChunks_out (code : ReplyCode) (cs : List Bytes) (w : World L S U) :
    ∃ new, (sendChunks code cs w).2.writer.out = w.writer.out ++ new := by
  induction cs generalizing w with
  | nil =>
    rcases flush_cases w with ⟨wr, h1, h2⟩ | ⟨wr, h1, h2⟩
    all_goals exact ⟨[], by simp [sendChunks, h1, h2]⟩
  | cons t ts ih =>
    unfold sendChunks
    cases hb : ReplyLine.build code (if ts.isEmpty then .yes else .no) t with
    | error e => exact ⟨[], by simp⟩
    | ok l =>
      simp only
      obtain ⟨new, hn⟩ := writeLine_out l w
      rcases writeLine_cases l w with ⟨wr, h1, h2⟩ | ⟨wr, h1, h2⟩
      · rw [SM.bind_ok h1]
        obtain ⟨new', hn'⟩ := ih { w with writer := wr }
        exact ⟨l.sendTo :: new', by rw [hn']; simp [h2]⟩
      · rw [h1] at hn
        rw [SM.bind_err h1]
        exact ⟨new, hn⟩

theorem sendReply_out (r : Reply) (w : World L S U) :
    ∃ new, (sendReply r w).2.writer.out = w.writer.out ++ new := by
  unfold sendReply
  cases hcs : byteChunks r.2 ReplyLine.maxLen with
  | none => exact ⟨[], by simp⟩
  | some cs =>
    obtain ⟨new, hn⟩ := sendChunks_out r.1 cs w
    simp only
    rcases sendChunks_cases r.1 cs w with ⟨ls, wr, k1, k2, k3⟩ | ⟨wr, new', k1, k2, k3⟩ | ⟨wr, k1, k2⟩
    · rw [SM.bind_ok k2]; exact ⟨_, k3⟩
    · rw [SM.bind_err k1]; exact ⟨_, k2⟩
    · rw [SM.bind_panic k2]; rw [k2] at hn; exact ⟨new, hn⟩

/-- What `handle_mail` may do, for a given configuration: some run of its handler, on some packetisation of
the bytes to come, returned with the stream completed. -/
def Handles (C : Config L S U) (fuel : Nat) : Handling L S U := fun s u m b d s' u' b' =>
  ∃ (rd : Prep Bytes) (x : DStream), rd.bytes = b ∧
    runHandler (C.handleMail s u m) fuel [] (DStream.new rd) = .returned d s' u' x ∧
    x.wasCompleted = true ∧ x.source.bytes = b'

/-- What is known about the treatment of a message after the events `evs` of its exchange: nothing before
the handler has returned, except that nothing was read for good. -/
def Upto (C : Config L S U) (fuel : Nat) (evs : List (Ev L)) : Handling L S U := fun s u m b d s' u' b' =>
  (Ev.handled d ∈ evs → Handles C fuel s u m b d s' u' b') ∧ (Ev.handled d ∉ evs → b' = b)

/-- What stands in the record for an unsuccessful end. -/
def errEv : Res Unit → List (Ev L)
  | .err => [.writeError]
  | _ => []

/-- Why an exchange was cut short just before event `e`, after the events `evs`. -/
inductive Cut (C : Config L S U) (fuel : Nat) (b : Bytes) : List (Ev L) → Ev L → Res Unit → Prop
  | write {evs rp} : Cut C fuel b evs (.reply rp) .err
  | text {evs rp} : ¬ Sendable rp → Cut C fuel b evs (.reply rp) (.panic .buildUnwrap)
  | handlerPanic {evs s u m rd d p} : rd.bytes = b →
      runHandler (C.handleMail s u m) fuel [] (DStream.new rd) = .panicked p →
      Cut C fuel b (evs ++ [.handleMail m]) (.handled d) (.panic p)
  | notCompleted {evs s u m rd d s' u' x} : rd.bytes = b →
      runHandler (C.handleMail s u m) fuel [] (DStream.new rd) = .returned d s' u' x →
      x.wasCompleted = false →
      Cut C fuel b (evs ++ [.handleMail m]) (.handled d) (.panic .notCompleted)
  | running {evs s u m rd d} : rd.bytes = b →
      runHandler (C.handleMail s u m) fuel [] (DStream.new rd) = .running →
      Cut C fuel b (evs ++ [.handleMail m]) (.handled d) .running

/-- The lines of the replies in a record. -/
def outputOf (evs : List (Ev L)) : List Bytes :=
  evs.flatMap fun | .reply r => wire r | _ => []

/-- The possible results of a piece of a session that starts in `w`, reading `cmd`. -/
inductive LineOut (C : Config L S U) (fuel : Nat) (cmd : Option (Command L)) (w : World L S U) :
    Res Unit → World L S U → Prop
  | ok {w' evs} : w'.trace = w.trace ++ evs →
      Exchange C (Handles C fuel) cmd w.st w.reader.bytes evs w'.st w'.reader.bytes →
      w'.writer.out = w.writer.out ++ outputOf evs →
      LineOut C fuel cmd w (.ok ()) w'
  | cut {r w' evs e rest st' b' new} : w'.trace = w.trace ++ evs ++ errEv r →
      Exchange C (Upto C fuel evs) cmd w.st w.reader.bytes (evs ++ e :: rest) st' b' →
      w'.reader.bytes = b' →
      Cut C fuel w.reader.bytes evs e r →
      w'.writer.out = w.writer.out ++ outputOf evs ++ new →
      (r = .err → (∀ rp, e = .reply rp → Sendable rp → new <+: wire rp)) →
      LineOut C fuel cmd w r w'

theorem _root_.Verif.Spec.Exchange.mono {C : Config L S U} {H H' : Handling L S U} {cmd st b evs st' b'}
    (h : Exchange C H cmd st b evs st' b')
    (hh : ∀ s u m b d s' u' b', H s u m b d s' u' b' → H' s u m b d s' u' b') :
    Exchange C H' cmd st b evs st' b' := by
  cases h with
  | unrecognized => exact .unrecognized
  | unimplemented h => exact .unimplemented h
  | mailAgain => exact .mailAgain
  | mailAccepted h => exact .mailAccepted h
  | mailRefused h => exact .mailRefused h
  | rcptEarly => exact .rcptEarly
  | rcptAccepted h => exact .rcptAccepted h
  | rcptRefused h => exact .rcptRefused h
  | dataEarly => exact .dataEarly
  | dataNoRcpt => exact .dataNoRcpt
  | dataRefused h1 h2 => exact .dataRefused h1 h2
  | dataHandled h1 h2 h3 => exact .dataHandled h1 h2 (hh _ _ _ _ _ _ _ _ h3)

theorem _root_.Verif.Spec.Exchange.upto {C : Config L S U} {fuel : Nat} {cmd st b evs r st' b'}
    (h : Exchange C (Handles C fuel) cmd st b (evs ++ [.reply r]) st' b') :
    Exchange C (Upto C fuel evs) cmd st b (evs ++ [.reply r]) st' b' := by
  generalize hx : evs ++ [.reply r] = x at h
  cases h with
  | unrecognized => exact .unrecognized
  | unimplemented h => exact .unimplemented h
  | mailAgain => exact .mailAgain
  | mailAccepted h => exact .mailAccepted h
  | mailRefused h => exact .mailRefused h
  | rcptEarly => exact .rcptEarly
  | rcptAccepted h => exact .rcptAccepted h
  | rcptRefused h => exact .rcptRefused h
  | dataEarly => exact .dataEarly
  | dataNoRcpt => exact .dataNoRcpt
  | dataRefused h1 h2 => exact .dataRefused h1 h2
  | @dataHandled s u m _ m' s' u' d s'' u'' _ h1 h2 h3 =>
    refine .dataHandled h1 h2 ⟨fun _ => h3, fun hn => ?_⟩
    exfalso
    apply hn
    have : evs = [.filterData m m' .accept, .reply (C.dataOkay s'), .handleMail m', .handled d] :=
      (List.append_inj' (t₁ := [.reply r]) (t₂ := [.reply (answer (C.mailAccepted s'') d)]) hx rfl).1
    simp [this]

@[simp] theorem outputOf_nil : outputOf ([] : List (Ev L)) = [] := rfl
@[simp] theorem outputOf_append (a b : List (Ev L)) : outputOf (a ++ b) = outputOf a ++ outputOf b := by
  simp [outputOf]
@[simp] theorem outputOf_reply (r : Reply) (b : List (Ev L)) : outputOf (.reply r :: b) = wire r ++ outputOf b := by
  simp [outputOf]

/-- Sending a reply in the middle of an exchange. -/
theorem lineOut_reply {C : Config L S U} {fuel cmd} {w w1 : World L S U} {evs : List (Ev L)} {r : Reply}
    {rest st' b'} (k : Unit → M L S U Unit)
    (htr : w1.trace = w.trace ++ evs) (hout : w1.writer.out = w.writer.out ++ outputOf evs)
    (hcut : Exchange C (Upto C fuel evs) cmd w.st w.reader.bytes (evs ++ .reply r :: rest) st' b')
    (hb : w1.reader.bytes = b')
    (hok : ∀ wr, wr.out = w.writer.out ++ outputOf (evs ++ [.reply r]) →
      LineOut C fuel cmd w (k () { w1 with writer := wr, trace := w1.trace ++ [.reply r] }).1
        (k () { w1 with writer := wr, trace := w1.trace ++ [.reply r] }).2) :
    LineOut C fuel cmd w ((sendReply r >>= k) w1).1 ((sendReply r >>= k) w1).2 := by
  rcases sendReply_cases r w1 with ⟨wr, h1, h2, h3⟩ | ⟨wr, new, h1, h2, h3⟩ | ⟨wr, h1, h2⟩
  · rw [SM.bind_ok h2]
    exact hok wr (by simp [h3, hout])
  · rw [SM.bind_err h1]
    exact .cut (new := new) (by simp [htr, errEv]) hcut hb .write (by simp [h2, hout])
      (fun _ rp he => by cases he; exact h3)
  · rw [SM.bind_panic h2]
    have hout' : ∃ new, wr.out = w1.writer.out ++ new := by
      rcases sendReply_out r w1 with ⟨new, hn⟩
      rw [h2] at hn
      exact ⟨new, hn⟩
    obtain ⟨new, hn⟩ := hout'
    exact .cut (new := new) (by simp [htr, errEv]) hcut hb (.text h1) (by simp [hn, hout]) (by simp)

/-- The last reply of an exchange. -/
theorem lineOut_last {C : Config L S U} {fuel cmd} {w w1 : World L S U} {evs : List (Ev L)} {r : Reply}
    (g : World L S U → World L S U) (k : Unit → M L S U Unit) (hk : ∀ w, k () w = (.ok (), g w))
    (hg : ∀ w, (g w).trace = w.trace ∧ (g w).writer = w.writer ∧ (g w).reader = w.reader)
    (hgs : ∀ wr tr, (g { w1 with writer := wr, trace := tr }).st = (g w1).st)
    (htr : w1.trace = w.trace ++ evs) (hout : w1.writer.out = w.writer.out ++ outputOf evs)
    (hex : Exchange C (Handles C fuel) cmd w.st w.reader.bytes (evs ++ [.reply r]) (g w1).st w1.reader.bytes) :
    LineOut C fuel cmd w ((sendReply r >>= k) w1).1 ((sendReply r >>= k) w1).2 := by
  refine lineOut_reply k htr hout hex.upto rfl ?_
  intro wr hwr
  rw [hk]
  obtain ⟨g1, g2, g3⟩ := hg { w1 with writer := wr, trace := w1.trace ++ [.reply r] }
  refine .ok (evs := evs ++ [.reply r]) (by rw [g1, htr, List.append_assoc]) ?_ (by simp only [g2, hwr])
  rw [hgs, g3]
  exact hex

theorem lineOut_only {C : Config L S U} {fuel cmd} {w w1 : World L S U} {evs : List (Ev L)} {r : Reply}
    (htr : w1.trace = w.trace ++ evs) (hout : w1.writer.out = w.writer.out ++ outputOf evs)
    (hex : Exchange C (Handles C fuel) cmd w.st w.reader.bytes (evs ++ [.reply r]) w1.st w1.reader.bytes) :
    LineOut C fuel cmd w (sendReply r w1).1 (sendReply r w1).2 := by
  have h : (sendReply r >>= fun _ => Pure.pure ()) w1 = sendReply (L := L) r w1 := by
    show SM.bind _ _ _ = _
    unfold SM.bind
    rcases sendReply r w1 with ⟨x, w'⟩
    cases x <;> rfl
  rw [← h]
  exact lineOut_last id _ (fun _ => rfl) (fun _ => ⟨rfl, rfl, rfl⟩) (fun _ _ => rfl) htr hout hex

theorem handleMailCmd_out (C : Config L S U) (fuel : Nat) (f : Option (Email L)) (p) (w : World L S U) :
    LineOut C fuel (some (.mail f p)) w (handleMailCmd C f w).1 (handleMailCmd C f w).2 := by
  obtain ⟨rd, wr, s, u, mail, tr⟩ := w
  unfold handleMailCmd
  cases mail with
  | some m =>
    simp only [SM.get_bind, Option.isSome_some, if_true, sendCfg]
    exact lineOut_only (evs := []) (by simp) (by simp) .mailAgain
  | none =>
    rcases hf : C.filterFrom (C.newMail s) u f with ⟨d, f', s', u'⟩
    simp only [SM.get_bind, Option.isSome_none, Bool.false_eq_true, if_false, callNewMail, callFilterFrom,
      SM.bind_assoc', SM.modify_bind, emit_bind, SM.pure_bind', hf]
    cases d with
    | accept =>
      simp only [sendCfg, SM.bind_assoc', SM.get_bind]
      refine lineOut_last (fun w => { w with mail := some ⟨f', []⟩ }) _ (fun _ => rfl) (fun _ => ⟨rfl, rfl, rfl⟩)
        (fun _ _ => rfl) (evs := [.newMail, .filterFrom f f' .accept]) (by simp) (by simp [outputOf]) ?_
      exact .mailAccepted hf
    | reject r =>
      refine lineOut_only (evs := [.newMail, .filterFrom f f' (.reject r)]) (by simp) (by simp [outputOf]) ?_
      exact .mailRefused hf

theorem handleRcptCmd_out (C : Config L S U) (fuel : Nat) (t : Email L) (p) (w : World L S U) :
    LineOut C fuel (some (.rcpt t p)) w (handleRcptCmd C t w).1 (handleRcptCmd C t w).2 := by
  obtain ⟨rd, wr, s, u, mail, tr⟩ := w
  unfold handleRcptCmd
  cases mail with
  | none =>
    simp only [SM.get_bind, sendCfg]
    exact lineOut_only (evs := []) (by simp) (by simp) .rcptEarly
  | some m =>
    rcases hf : C.filterTo s u t m with ⟨d, t', m', s', u'⟩
    simp only [SM.get_bind, callFilterTo, SM.bind_assoc', SM.modify_bind, emit_bind, SM.pure_bind', hf]
    cases d with
    | accept =>
      simp only [sendCfg, setMail_bind, SM.get_bind]
      exact lineOut_only (evs := [.filterTo t t' m m' .accept]) (by simp) (by simp [outputOf]) (.rcptAccepted hf)
    | reject r =>
      exact lineOut_only (evs := [.filterTo t t' m m' (.reject r)]) (by simp) (by simp [outputOf]) (.rcptRefused hf)

theorem callHandleMail_cases (C : Config L S U) (fuel : Nat) (m : MailMeta L) (w : World L S U) :
    (runHandler (C.handleMail w.cfg w.conn m) fuel [] (DStream.new w.reader) = .running ∧
      callHandleMail C fuel m w = (.running, { w with trace := w.trace ++ [.handleMail m] })) ∨
    (∃ p, runHandler (C.handleMail w.cfg w.conn m) fuel [] (DStream.new w.reader) = .panicked p ∧
      callHandleMail C fuel m w = (.panic p, { w with trace := w.trace ++ [.handleMail m] })) ∨
    (∃ d s u x, runHandler (C.handleMail w.cfg w.conn m) fuel [] (DStream.new w.reader) = .returned d s u x ∧
      x.wasCompleted = false ∧
      callHandleMail C fuel m w = (.panic .notCompleted, { w with trace := w.trace ++ [.handleMail m] })) ∨
    (∃ d s u x, runHandler (C.handleMail w.cfg w.conn m) fuel [] (DStream.new w.reader) = .returned d s u x ∧
      x.wasCompleted = true ∧
      callHandleMail C fuel m w = (.ok d, { w with
        cfg := s, conn := u, reader := x.source, trace := w.trace ++ [.handleMail m] ++ [.handled d] })) := by
  unfold callHandleMail
  rw [emit_bind, SM.get_bind]
  cases hr : runHandler (C.handleMail w.cfg w.conn m) fuel [] (DStream.new w.reader) with
  | running => left; exact ⟨rfl, rfl⟩
  | panicked p => right; left; exact ⟨p, rfl, rfl⟩
  | returned d s u x =>
    right; right
    cases hx : x.wasCompleted with
    | false => left; exact ⟨d, s, u, x, rfl, hx, by simp [hx]⟩
    | true => right; exact ⟨d, s, u, x, rfl, hx, by simp [hx]⟩

theorem handleDataCmd_out (C : Config L S U) (fuel : Nat) (w : World L S U) :
    LineOut C fuel (some .data) w (handleDataCmd C fuel w).1 (handleDataCmd C fuel w).2 := by
  obtain ⟨rd, wr, s, u, mail, tr⟩ := w
  unfold handleDataCmd
  cases mail with
  | none =>
    simp only [SM.get_bind, sendCfg]
    exact lineOut_only (evs := []) (by simp) (by simp) .dataEarly
  | some m =>
    simp only [SM.get_bind, setMail_bind]
    obtain ⟨f, to⟩ := m
    cases to with
    | nil =>
      simp only [List.isEmpty_nil, if_true, sendCfg, SM.bind_assoc', SM.get_bind]
      exact lineOut_last (fun w => { w with mail := some ⟨f, []⟩ }) _ (fun _ => rfl) (fun _ => ⟨rfl, rfl, rfl⟩)
        (fun _ _ => rfl) (evs := []) (by simp) (by simp) .dataNoRcpt
    | cons a to =>
      have hne : (MailMeta.mk f (a :: to)).to ≠ [] := by simp
      rcases hf : C.filterData s u ⟨f, a :: to⟩ with ⟨d, m', s', u'⟩
      simp only [List.isEmpty_cons, Bool.false_eq_true, if_false, callFilterData, SM.bind_assoc',
        SM.modify_bind, emit_bind, SM.pure_bind', SM.get_bind, hf]
      cases d with
      | reject r =>
        refine lineOut_last (fun w => { w with mail := some m' }) _ (fun _ => rfl) (fun _ => ⟨rfl, rfl, rfl⟩)
          (fun _ _ => rfl) (evs := [.filterData ⟨f, a :: to⟩ m' (.reject r)]) (by simp) (by simp [outputOf]) ?_
        exact .dataRefused hne hf
      | accept =>
        simp only [sendCfg, SM.bind_assoc', SM.get_bind]
        refine lineOut_reply _ (evs := [.filterData ⟨f, a :: to⟩ m' .accept])
          (rest := [.handleMail m', .handled .accept, .reply (answer (C.mailAccepted s') .accept)])
          (st' := ⟨s', u', none⟩) (by simp) (by simp [outputOf]) (.dataHandled hne hf (by simp [Upto])) rfl ?_
        intro wr1 hwr1
        have hcut : ∀ d, Exchange C (Upto C fuel ([.filterData ⟨f, a :: to⟩ m' .accept, .reply (C.dataOkay s')] ++ [.handleMail m'])) (some .data) (World.st ⟨rd, wr, s, u, some ⟨f, a :: to⟩, tr⟩) rd.bytes
            (([.filterData ⟨f, a :: to⟩ m' .accept, .reply (C.dataOkay s')] ++ [.handleMail m']) ++
              .handled d :: [.reply (answer (C.mailAccepted s') d)]) ⟨s', u', none⟩ rd.bytes :=
          fun d => .dataHandled hne hf (by simp [Upto])
        rcases callHandleMail_cases C fuel m' ⟨rd, wr1, s', u', none, tr ++ [.filterData ⟨f, a :: to⟩ m' .accept] ++
            [.reply (C.dataOkay s')]⟩ with ⟨hr, h1⟩ | ⟨p, hr, h1⟩ | ⟨d, s2, u2, x, hr, hx, h1⟩ | ⟨d, s2, u2, x, hr, hx, h1⟩
        · rw [SM.bind_running h1]
          exact .cut (new := []) (by simp [errEv]) (hcut .accept) rfl (.running rfl hr)
            (by simpa [outputOf] using hwr1) (by simp)
        · rw [SM.bind_panic h1]
          exact .cut (new := []) (by simp [errEv]) (hcut .accept) rfl (.handlerPanic rfl hr)
            (by simpa [outputOf] using hwr1) (by simp)
        · rw [SM.bind_panic h1]
          exact .cut (new := []) (by simp [errEv]) (hcut d) rfl (.notCompleted rfl hr hx)
              (by simpa [outputOf] using hwr1) (by simp)
        · rw [SM.bind_ok h1]
          have hH : Handles C fuel s' u' m' rd.bytes d s2 u2 x.source.bytes := ⟨rd, x, rfl, hr, hx, rfl⟩
          have hex := Exchange.dataHandled (C := C) hne hf hH
          cases d with
          | accept =>
            simp only [SM.get_bind]
            exact lineOut_only (evs := [.filterData ⟨f, a :: to⟩ m' .accept, .reply (C.dataOkay s'), .handleMail m',
              .handled .accept]) (by simp) (by simpa [outputOf] using hwr1) hex
          | reject r =>
            exact lineOut_only (evs := [.filterData ⟨f, a :: to⟩ m' .accept, .reply (C.dataOkay s'), .handleMail m',
              .handled (.reject r)]) (by simp) (by simpa [outputOf] using hwr1) hex

theorem handleLine_out (C : Config L S U) (fuel : Nat) (line : Bytes) (w : World L S U) :
    LineOut C fuel (commandOn line) w (handleLine C fuel line w).1 (handleLine C fuel line w).2 := by
  unfold handleLine commandOn
  cases hp : (Command.parse line : Except ParseErr (Command L)) with
  | error e =>
    simp only [Except.toOption, sendCfg, SM.get_bind]
    exact lineOut_only (evs := []) (by simp) (by simp) .unrecognized
  | ok c =>
    simp only [Except.toOption]
    cases c with
    | mail f p => exact handleMailCmd_out C fuel f p w
    | rcpt t p => exact handleRcptCmd_out C fuel t p w
    | data => exact handleDataCmd_out C fuel w
    | _ =>
      simp only [sendCfg, SM.get_bind]
      exact lineOut_only (evs := []) (by simp) (by simp) (.unimplemented (by simp [Implemented]))

end Server
end Verif
