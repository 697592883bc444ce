import Verif.Proofs.History
/-
The dialogue is a function of the bytes received; packets and not-ready polls do not matter.
-/
namespace Verif
open Spec

namespace Spec
variable {L : IpLib} {S U : Type}

/-- At most one treatment of each message. -/
def Handling.Det (H : Handling L S U) : Prop :=
  ∀ s u m b d s' u' b' d2 s2 u2 b2, H s u m b d s' u' b' → H s u m b d2 s2 u2 b2 →
    d = d2 ∧ s' = s2 ∧ u' = u2 ∧ b' = b2

theorem byText_det (V : Verdict L S U) : Handling.Det (ByText V) := by
  intro s u m b d s' u' b' d2 s2 u2 b2 h1 h2
  rcases h1 with ⟨ls, h1, e1⟩ | ⟨ls, part, h1, rfl, e1⟩ <;> rcases h2 with ⟨ls2, h2, e2⟩ | ⟨ls2, part2, h2, rfl, e2⟩
  · obtain ⟨rfl, h3⟩ := isMessage_unique h1 h2
    rw [h3, e2] at e1
    simp at e1
    simp [e1]
  · have k1 := decode_message h1
    have k2 := decode_unfinished h2
    rw [k1] at k2
    simp at k2
  · have k1 := decode_unfinished h1
    have k2 := decode_message h2
    rw [k1] at k2
    simp at k2
  · have k1 := decode_unfinished h1
    have k2 := decode_unfinished h2
    rw [k1] at k2
    simp at k2
    rw [k2, e2] at e1
    simp at e1
    simp [e1]

theorem Exchange.det {C : Config L S U} {H : Handling L S U} (hH : H.Det) {cmd st b evs st' b' evs2 st2 b2}
    (h1 : Exchange C H cmd st b evs st' b') (h2 : Exchange C H cmd st b evs2 st2 b2) :
    evs = evs2 ∧ st' = st2 ∧ b' = b2 := by
  cases h1 with
  | unrecognized => cases h2; simp
  | unimplemented hc => cases h2 <;> simp_all [Implemented]
  | mailAgain => cases h2 <;> simp_all [Implemented]
  | mailAccepted hf => cases h2 <;> simp_all [Implemented]
  | mailRefused hf => cases h2 <;> simp_all [Implemented]
  | rcptEarly => cases h2 <;> simp_all [Implemented]
  | rcptAccepted hf => cases h2 <;> simp_all [Implemented]
  | rcptRefused hf => cases h2 <;> simp_all [Implemented]
  | dataEarly => cases h2 <;> simp_all [Implemented]
  | dataNoRcpt => cases h2 <;> simp_all [Implemented]
  | dataRefused hne hf => cases h2 <;> simp_all [Implemented]
  | dataHandled hne hf hh =>
    cases h2 with
    | unimplemented hc => simp [Implemented] at hc
    | dataNoRcpt => simp at hne
    | dataRefused _ hf2 => rw [hf] at hf2; simp at hf2
    | dataHandled _ hf2 hh2 =>
      rw [hf] at hf2
      simp at hf2
      obtain ⟨rfl, rfl, rfl⟩ := hf2
      obtain ⟨rfl, rfl, rfl, rfl⟩ := hH _ _ _ _ _ _ _ _ _ _ _ _ hh hh2
      simp

theorem Dialogue.det {C : Config L S U} {H : Handling L S U} (hH : H.Det) {st b evs st' b' evs2 st2 b2}
    (h1 : Dialogue C H st b evs st' b') (hb : NoCrlf b')
    (h2 : Dialogue C H st b evs2 st2 b2) (hb2 : NoCrlf b2) :
    evs = evs2 ∧ st' = st2 ∧ b' = b2 := by
  induction h1 generalizing evs2 st2 b2 with
  | nil =>
    cases h2 with
    | nil => simp
    | cons _ _ _ => exact absurd hb not_noCrlf
  | @cons st l t evs st1 b1 evs' st2' b2' k1 k2 k3 ih =>
    generalize hx : l ++ crlf ++ t = x at h2
    cases h2 with
    | nil => rw [← hx] at hb2; exact absurd hb2 not_noCrlf
    | cons j1 j2 j3 =>
      obtain ⟨rfl, rfl⟩ := firstCrlf_unique k1 j1 hx
      obtain ⟨rfl, rfl, rfl⟩ := k2.det hH j2
      obtain ⟨rfl, rfl, rfl⟩ := ih hb j3 hb2
      simp

/-- A session is determined by the bytes received. -/
theorem CompleteSession.det {C : Config L S U} {H : Handling L S U} (hH : H.Det) {s u input tr tr2 st st2}
    (h1 : CompleteSession C H s u input tr st) (h2 : CompleteSession C H s u input tr2 st2) : tr = tr2 ∧ st = st2 := by
  obtain ⟨evs, left, rfl, h3, h4⟩ := h1
  obtain ⟨evs2, left2, rfl, h5, h6⟩ := h2
  obtain ⟨rfl, rfl, rfl⟩ := h3.det hH h4 h5 h6
  simp

end Spec

namespace Server
variable {L : IpLib} {S U : Type}

/-! ### Two runs on the same bytes -/

/-- Two worlds that differ at most in how the bytes to come are cut into packets. -/
structure Alike (w1 w2 : World L S U) : Prop where
  bytes : w1.reader.bytes = w2.reader.bytes
  writer : w1.writer = w2.writer
  cfg : w1.cfg = w2.cfg
  conn : w1.conn = w2.conn
  mail : w1.mail = w2.mail
  trace : w1.trace = w2.trace

theorem Alike.iff {w1 w2 : World L S U} :
    Alike w1 w2 ↔ ∃ rd, rd.bytes = w1.reader.bytes ∧ w2 = { w1 with reader := rd } := by
  constructor
  · rintro ⟨h1, h2, h3, h4, h5, h6⟩
    obtain ⟨rd, wr, s, u, m, tr⟩ := w2
    simp at h1 h2 h3 h4 h5 h6
    exact ⟨rd, h1.symm, by rw [h2, h3, h4, h5, h6]⟩
  · rintro ⟨rd, h, rfl⟩
    exact ⟨h.symm, rfl, rfl, rfl, rfl, rfl⟩

/-- Two results that agree unless one of the runs is still going on. -/
def Agree {α : Type} (x1 x2 : Res α × World L S U) : Prop :=
  x1.1 = .running ∨ x2.1 = .running ∨ (x1.1 = x2.1 ∧ Alike x1.2 x2.2)

/-- Programs that treat alike worlds alike. -/
def Similar {α : Type} (p q : M L S U α) : Prop := ∀ w1 w2, Alike w1 w2 → Agree (p w1) (q w2)

theorem Similar.bind {α β : Type} {p q : M L S U α} {f g : α → M L S U β} (h : Similar p q)
    (hf : ∀ a, Similar (f a) (g a)) : Similar (p >>= f) (q >>= g) := by
  intro w1 w2 hw
  have := h w1 w2 hw
  rcases hp : p w1 with ⟨r1, v1⟩
  rcases hq : q w2 with ⟨r2, v2⟩
  rw [hp, hq] at this
  rcases this with h | h | ⟨h, h'⟩
  · dsimp only at h; subst h
    left; rw [SM.bind_running hp]
  · dsimp only at h; subst h
    right; left; rw [SM.bind_running hq]
  · dsimp only at h; subst h
    cases r1 with
    | ok a => rw [SM.bind_ok hp, SM.bind_ok hq]; exact hf a _ _ h'
    | err => rw [SM.bind_err hp, SM.bind_err hq]; exact .inr (.inr ⟨rfl, h'⟩)
    | panic e => rw [SM.bind_panic hp, SM.bind_panic hq]; exact .inr (.inr ⟨rfl, h'⟩)
    | running => left; rw [SM.bind_running hp]

theorem similar_pure {α : Type} (a : α) : Similar (Pure.pure a : M L S U α) (Pure.pure a) :=
  fun _ _ h => .inr (.inr ⟨rfl, h⟩)

theorem similar_panic {α : Type} (p : Panic) : Similar (SM.panic p : M L S U α) (SM.panic p) :=
  fun _ _ h => .inr (.inr ⟨rfl, h⟩)

theorem similar_running {α : Type} (p : M L S U α) : Similar (SM.running : M L S U α) p :=
  fun _ _ _ => .inl rfl

theorem similar_running' {α : Type} (p : M L S U α) : Similar p (SM.running : M L S U α) :=
  fun _ _ _ => .inr (.inl rfl)

theorem similar_modify {f : World L S U → World L S U} (h : ∀ w1 w2, Alike w1 w2 → Alike (f w1) (f w2)) :
    Similar (SM.modify f) (SM.modify f) :=
  fun _ _ hw => .inr (.inr ⟨rfl, h _ _ hw⟩)

theorem similar_get {β : Type} {f g : World L S U → M L S U β}
    (h : ∀ w1 w2, Alike w1 w2 → Similar (f w1) (g w2)) : Similar (SM.get >>= f) (SM.get >>= g) :=
  fun w1 w2 hw => h w1 w2 hw w1 w2 hw

theorem similar_emit (e : Ev L) : Similar (emit e : M L S U Unit) (emit e) :=
  similar_modify fun _ _ h => { h with trace := by simp [h.trace] }

theorem similar_setMail (m : Option (MailMeta L)) : Similar (setMail m : M L S U Unit) (setMail m) :=
  similar_modify fun _ _ h => { h with mail := rfl }

theorem similar_writeLine (l : ReplyLine) : Similar (writeLine l : M L S U Unit) (writeLine l) := by
  intro w1 w2 hw
  obtain ⟨rd, hrd, rfl⟩ := Alike.iff.1 hw
  right; right
  unfold writeLine
  split
  · exact ⟨rfl, hw⟩
  · dsimp only
    rcases w1.writer.send l.sendTo with ⟨ok, s⟩
    dsimp only
    cases ok
    · exact ⟨rfl, ⟨hrd.symm, rfl, rfl, rfl, rfl, rfl⟩⟩
    · exact ⟨rfl, ⟨hrd.symm, rfl, rfl, rfl, rfl, rfl⟩⟩

theorem similar_flush : Similar (flush : M L S U Unit) flush := by
  intro w1 w2 hw
  obtain ⟨rd, hrd, rfl⟩ := Alike.iff.1 hw
  right; right
  unfold flush
  dsimp only
  split
  · exact ⟨rfl, hw⟩
  · exact ⟨rfl, ⟨hrd.symm, rfl, rfl, rfl, rfl, rfl⟩⟩
  · exact ⟨rfl, ⟨hrd.symm, rfl, rfl, rfl, rfl, rfl⟩⟩

theorem similar_sendChunks (code : ReplyCode) (cs : List Bytes) :
    Similar (sendChunks code cs : M L S U Unit) (sendChunks code cs) := by
  induction cs with
  | nil => exact similar_flush
  | cons t ts ih =>
    unfold sendChunks
    cases ReplyLine.build code (if ts.isEmpty then .yes else .no) t with
    | error e => exact similar_panic _
    | ok l => exact (similar_writeLine l).bind fun _ => ih

theorem similar_sendReply (r : Reply) : Similar (sendReply r : M L S U Unit) (sendReply r) := by
  unfold sendReply
  cases byteChunks r.2 ReplyLine.maxLen with
  | none => exact similar_panic _
  | some cs => exact (similar_sendChunks _ _).bind fun _ => similar_emit _

theorem similar_sendCfg (f : S → Reply) : Similar (sendCfg f : M L S U Unit) (sendCfg f) := by
  unfold sendCfg
  refine similar_get fun w1 w2 hw => ?_
  rw [hw.cfg]
  exact similar_sendReply _

theorem similar_nextLine : Similar (nextLine : M L S U (Option Bytes)) nextLine := by
  intro w1 w2 hw
  right; right
  rcases nextLine_cases w1 with ⟨h, rd, h1, h2⟩ | ⟨l, t, rd, h1, h2, h3, h4⟩ <;>
    rcases nextLine_cases w2 with ⟨k, rd', k1, k2⟩ | ⟨l', t', rd', k1, k2, k3, k4⟩
  · rw [h2, k2]
    exact ⟨rfl, { hw with bytes := by simp [h1, k1, hw.bytes] }⟩
  · rw [hw.bytes, k2] at h; exact absurd h not_noCrlf
  · rw [← hw.bytes, h2] at k; exact absurd k not_noCrlf
  · rw [hw.bytes, k2] at h2
    obtain ⟨rfl, rfl⟩ := firstCrlf_unique k1 h1 h2
    rw [h4, k4]
    exact ⟨rfl, { hw with bytes := by simp [h3, k3] }⟩

variable {C : Config L S U} {V : Verdict L S U}

theorem similar_callHandleMail (hV : ∀ s u m, WholeMessage (C.handleMail s u m) (V s u m)) (n1 n2 : Nat)
    (m : MailMeta L) : Similar (callHandleMail C n1 m) (callHandleMail C n2 m) := by
  intro w1 w2 hw
  have handles : ∀ (w : World L S U) fuel d s u x,
      runHandler (C.handleMail w.cfg w.conn m) fuel [] (DStream.new w.reader) = .returned d s u x →
      x.wasCompleted = true ∧ ByText V w.cfg w.conn m w.reader.bytes d s u x.source.bytes := by
    intro w fuel d s u x h
    obtain ⟨k, d1, s1, u1, x1, h4, h5, h6⟩ := whole_run (hV w.cfg w.conn m) w.reader
    have h7 := runHandler_mono (by rw [h]; simp :
      runHandler (C.handleMail w.cfg w.conn m) fuel [] (DStream.new w.reader) ≠ .running) (fuel + k) (by omega)
    rw [h4, h] at h7
    simp at h7
    obtain ⟨rfl, rfl, rfl, rfl⟩ := h7
    exact ⟨h5, h6⟩
  have noPanic : ∀ (w : World L S U) fuel p,
      runHandler (C.handleMail w.cfg w.conn m) fuel [] (DStream.new w.reader) ≠ .panicked p := by
    intro w fuel p h
    obtain ⟨k, d1, s1, u1, x1, h4, h5, h6⟩ := whole_run (hV w.cfg w.conn m) w.reader
    have h7 := runHandler_mono (by rw [h]; simp :
      runHandler (C.handleMail w.cfg w.conn m) fuel [] (DStream.new w.reader) ≠ .running) (fuel + k) (by omega)
    rw [h4, h] at h7
    simp at h7
  rcases callHandleMail_cases C n1 m w1 with ⟨h, h'⟩ | ⟨p, h, h'⟩ | ⟨d, s, u, x, h, hx, h'⟩ | ⟨d, s, u, x, h, hx, h'⟩
  · left; rw [h']
  · exact absurd h (noPanic _ _ _)
  · rw [(handles w1 n1 d s u x h).1] at hx; simp at hx
  · rcases callHandleMail_cases C n2 m w2 with ⟨k, k'⟩ | ⟨p, k, k'⟩ | ⟨d2, s2, u2, x2, k, kx, k'⟩ | ⟨d2, s2, u2, x2, k, kx, k'⟩
    · right; left; rw [k']
    · exact absurd k (noPanic _ _ _)
    · rw [(handles w2 n2 d2 s2 u2 x2 k).1] at kx; simp at kx
    · have e1 := (handles w1 n1 d s u x h).2
      have e2 := (handles w2 n2 d2 s2 u2 x2 k).2
      rw [← hw.bytes, ← hw.cfg, ← hw.conn] at e2
      obtain ⟨rfl, rfl, rfl, hb⟩ := byText_det V _ _ _ _ _ _ _ _ _ _ _ _ e1 e2
      right; right
      rw [h', k']
      exact ⟨rfl, ⟨hb, hw.writer, rfl, rfl, hw.mail, by simp [hw.trace]⟩⟩

theorem similar_handleMailCmd (f : Option (Email L)) : Similar (handleMailCmd C f) (handleMailCmd C f) := by
  unfold handleMailCmd
  refine similar_get fun w1 w2 hw => ?_
  rw [hw.mail]
  split
  · exact similar_sendCfg _
  · refine Similar.bind ?_ fun _ => Similar.bind ?_ fun r => ?_
    · unfold callNewMail
      refine Similar.bind (similar_modify ?_) fun _ => similar_emit _
      exact fun _ _ h => { h with cfg := by simp [h.cfg] }
    · unfold callFilterFrom
      refine similar_get fun v1 v2 hv => ?_
      rw [hv.cfg, hv.conn]
      rcases C.filterFrom v2.cfg v2.conn f with ⟨d, f', s', u'⟩
      refine Similar.bind (similar_modify ?_) fun _ => (similar_emit _).bind fun _ => similar_pure _
      exact fun _ _ h => { h with cfg := rfl, conn := rfl }
    · obtain ⟨d, f'⟩ := r
      cases d with
      | accept => exact (similar_sendCfg _).bind fun _ => similar_setMail _
      | reject r => exact similar_sendReply _

theorem similar_handleRcptCmd (t : Email L) : Similar (handleRcptCmd C t) (handleRcptCmd C t) := by
  unfold handleRcptCmd
  refine similar_get fun w1 w2 hw => ?_
  rw [hw.mail]
  cases w2.mail with
  | none => exact similar_sendCfg _
  | some m =>
    refine Similar.bind ?_ fun r => ?_
    · unfold callFilterTo
      refine similar_get fun v1 v2 hv => ?_
      rw [hv.cfg, hv.conn]
      rcases C.filterTo v2.cfg v2.conn t m with ⟨d, t', m', s', u'⟩
      refine Similar.bind (similar_modify ?_) fun _ => (similar_emit _).bind fun _ => similar_pure _
      exact fun _ _ h => { h with cfg := rfl, conn := rfl, mail := rfl }
    · obtain ⟨d, t', m'⟩ := r
      cases d with
      | accept => exact (similar_setMail _).bind fun _ => similar_sendCfg _
      | reject r => exact similar_sendReply _

theorem similar_handleDataCmd (hV : ∀ s u m, WholeMessage (C.handleMail s u m) (V s u m)) (n1 n2 : Nat) :
    Similar (handleDataCmd C n1) (handleDataCmd C n2) := by
  unfold handleDataCmd
  refine similar_get fun w1 w2 hw => ?_
  rw [hw.mail]
  cases w2.mail with
  | none => exact similar_sendCfg _
  | some m =>
    refine (similar_setMail _).bind fun _ => ?_
    split
    · exact (similar_sendCfg _).bind fun _ => similar_setMail _
    · refine Similar.bind ?_ fun r => ?_
      · unfold callFilterData
        refine similar_get fun v1 v2 hv => ?_
        rw [hv.cfg, hv.conn]
        rcases C.filterData v2.cfg v2.conn m with ⟨d, m', s', u'⟩
        refine Similar.bind (similar_modify ?_) fun _ => (similar_emit _).bind fun _ => similar_pure _
        exact fun _ _ h => { h with cfg := rfl, conn := rfl }
      · obtain ⟨d, m'⟩ := r
        cases d with
        | accept =>
          refine (similar_sendCfg _).bind fun _ => (similar_callHandleMail hV n1 n2 m').bind fun d => ?_
          cases d with
          | accept => exact similar_sendCfg _
          | reject r => exact similar_sendReply _
        | reject r => exact (similar_sendReply _).bind fun _ => similar_setMail _

theorem similar_handleLine (hV : ∀ s u m, WholeMessage (C.handleMail s u m) (V s u m)) (n1 n2 : Nat) (l : Bytes) :
    Similar (handleLine C n1 l) (handleLine C n2 l) := by
  unfold handleLine
  cases (Command.parse l : Except ParseErr (Command L)) with
  | error e => exact similar_sendCfg _
  | ok c =>
    cases c with
    | mail f p => exact similar_handleMailCmd f
    | rcpt t p => exact similar_handleRcptCmd t
    | data => exact similar_handleDataCmd hV n1 n2
    | _ => exact similar_sendCfg _

theorem similar_loop (hV : ∀ s u m, WholeMessage (C.handleMail s u m) (V s u m)) (f1 f2 n1 n2 : Nat) :
    Similar (loop C f1 n1) (loop C f2 n2) := by
  induction n1 generalizing n2 with
  | zero => exact similar_running _
  | succ n1 ih =>
    cases n2 with
    | zero => exact similar_running' _
    | succ n2 =>
      unfold loop
      refine similar_nextLine.bind fun r => ?_
      cases r with
      | none => exact similar_pure _
      | some l => exact (similar_emit _).bind fun _ => (similar_handleLine hV f1 f2 l).bind fun _ => ih n2

theorem similar_session (hV : ∀ s u m, WholeMessage (C.handleMail s u m) (V s u m)) (n1 n2 : Nat) :
    Similar (session C n1) (session C n2) := by
  unfold session
  exact (similar_sendCfg _).bind fun _ => similar_loop hV n1 n2 n1 n2

end Server
end Verif
