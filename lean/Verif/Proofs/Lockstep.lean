import Verif.Proofs.Termination
import Verif.Props.Data
import Verif.Props.Lines
/-
From the reference session to the run, and how far the run has read.
-/
namespace Verif
open Spec

/-- `s'` comes from `s` by taking events up to and including `p`, and more bytes have been used up than the events before `p`
carry: so `p` was needed. -/
def Lazily (s s' : Prep Bytes) : Prop :=
  ∃ before p after, s.evs = before ++ .pkt p :: after ∧ s'.src = after ∧ (evBytes before).length + s'.bytes.length < s.bytes.length

theorem Lazily.trans {a b c : Prep Bytes} (h1 : Lazily a b) (h2 : Lazily b c) : Lazily a c := by
  obtain ⟨be, p, af, e1, rfl, e3⟩ := h1
  obtain ⟨be2, p2, af2, f1, f2, f3⟩ := h2
  have ha : a.bytes.length = (evBytes be).length + p.length + (evBytes b.src).length := by
    simp [Prep.bytes, e1]; omega
  cases hp : b.pre with
  | none =>
    have hb : b.evs = b.src := by simp [Prep.evs, hp]
    have hbb : b.bytes.length = (evBytes b.src).length := by simp [Prep.bytes, hb]
    refine ⟨be ++ .pkt p :: be2, p2, af2, by rw [e1, ← hb, f1]; simp, f2, ?_⟩
    simp only [evBytes_append, evBytes_pkt, List.length_append]
    omega
  | some x =>
    have hb : b.evs = .pkt x :: b.src := by simp [Prep.evs, hp]
    have hbb : b.bytes.length = x.length + (evBytes b.src).length := by simp [Prep.bytes, hb]
    rw [hb] at f1
    cases be2 with
    | nil =>
      simp only [List.nil_append, List.cons.injEq, SrcEv.pkt.injEq] at f1
      obtain ⟨rfl, rfl⟩ := f1
      refine ⟨be, p, _, e1, f2, ?_⟩
      simp at f3
      omega
    | cons y be2 =>
      simp only [List.cons_append, List.cons.injEq] at f1
      obtain ⟨rfl, f1⟩ := f1
      refine ⟨be ++ .pkt p :: be2, p2, af2, by rw [e1, f1]; simp, f2, ?_⟩
      simp only [evBytes_append, evBytes_pkt, List.length_append] at f3 ⊢
      omega

/-- The packet that makes a property of the bytes received so far true. -/
theorem first_packet (M : Bytes → Prop) (h0 : ¬ M []) (evs : List (SrcEv Bytes)) (h : M (evBytes evs)) :
    ∃ before p after, evs = before ++ .pkt p :: after ∧ ¬ M (evBytes before) ∧ M (evBytes before ++ p) := by
  have : ∀ (todo done : List (SrcEv Bytes)), ¬ M (evBytes done) → M (evBytes (done ++ todo)) →
      ∃ before p after, done ++ todo = before ++ .pkt p :: after ∧ ¬ M (evBytes before) ∧ M (evBytes before ++ p) := by
    intro todo
    induction todo with
    | nil => intro done h1 h2; rw [List.append_nil] at h2; exact absurd h2 h1
    | cons e todo ih =>
      intro done h1 h2
      by_cases hm : M (evBytes (done ++ [e]))
      · cases e with
        | pending => simp at hm; exact absurd hm h1
        | pkt p => exact ⟨done, p, todo, rfl, h1, by simpa using hm⟩
      · have := ih (done ++ [e]) hm (by simpa using h2)
        simpa using this
  exact this evs [] h0 h

theorem prefix_or_shorter {α : Type} {a b c d : List α} (h : a ++ b = c ++ d) : a.length < c.length ∨ ∃ x, a = c ++ x := by
  rcases Nat.lt_or_ge a.length c.length with hl | hl
  · exact .inl hl
  · right
    rcases List.append_eq_append_iff.1 h with ⟨x, e1, e2⟩ | ⟨x, e1, e2⟩
    · refine ⟨[], ?_⟩
      rw [e1] at hl
      have hx : x = [] := List.length_eq_zero_iff.1 (by simp at hl; omega)
      rw [e1, hx]; simp
    · exact ⟨x, e1⟩

theorem nextCrlfLine_lazy {s s' : Prep Bytes} {l : Bytes} (h : nextCrlfLine s = .ok (some l, s')) : Lazily s s' := by
  rcases nextCrlfLine_cases s with ⟨_, x, hx, _⟩ | ⟨l', t, x, h1, h2, h3, h4⟩
  · rw [h] at hx; simp at hx
  rw [h] at h3
  simp only [Except.ok.injEq, Prod.mk.injEq, Option.some.injEq] at h3
  obtain ⟨rfl, rfl⟩ := h3
  obtain ⟨before, p, after, e1, e2, e3⟩ := first_packet (fun b => ¬ NoCrlf b)
    (by intro hn; apply hn; rintro ⟨a, b, h⟩; simp [crlf] at h) s.evs
    (by
      intro hn
      apply hn
      refine ⟨l', t, ?_⟩
      rw [show evBytes s.evs = s.bytes from rfl, h2])
  obtain ⟨l2, s2, h5, h6⟩ := c14_no_overread s before after p e1 (Classical.not_not.1 e2) e3
  rw [h] at h5
  simp only [Except.ok.injEq, Prod.mk.injEq] at h5
  obtain ⟨_, rfl⟩ := h5
  refine ⟨before, p, after, e1, h6, ?_⟩
  have hb : s.bytes = evBytes before ++ (p ++ evBytes after) := by simp [Prep.bytes, e1]
  rw [h4]
  rcases prefix_or_shorter (hb.symm.trans h2) with hlt | ⟨x, hx⟩
  · rw [h2]; simp at hlt ⊢; omega
  · exfalso
    apply e2
    intro hn
    apply hn
    rw [hx]
    exact ⟨l', x, by simp⟩

namespace Server
variable {L : IpLib} {S U : Type}

theorem readAll_complete_lazy {s : Prep Bytes} {ls : List Bytes} {rest : Bytes} (h : IsMessage s.bytes ls rest) {d : DStream}
    (hc : (DStream.new s).readAll.2.complete = .ok (true, d)) : Lazily s d.source := by
  obtain ⟨d', h1, _, h3, _⟩ := message_result s (decode_message h)
  rw [hc] at h1
  simp only [Except.ok.injEq, Prod.mk.injEq, true_and] at h1
  subst h1
  obtain ⟨before, p, after, e1, e2, e3⟩ := first_packet HasMarker (by
      rw [c01_marker_iff]; rintro ⟨ls, r, hm, _⟩; have := congrArg List.length hm; simp at this) s.evs
    ((c01_marker_iff _).2 ⟨ls, rest, h⟩)
  have h6 := c06_no_overread s before after p e1 e2 e3
  refine ⟨before, p, after, e1, ?_, ?_⟩
  · unfold DStream.complete at hc
    split at hc
    · simp at hc
    · split at hc
      · simp at hc
      · split at hc
        · split at hc
          · rename_i s' hs'
            simp only [Except.ok.injEq, Prod.mk.injEq, true_and] at hc
            subst hc
            rw [h6] at hs'
            simp [Prep.prepend] at hs'
            rw [← hs']
          · simp at hc
        · simp only [Except.ok.injEq, Prod.mk.injEq, true_and] at hc
          subst hc
          rw [h6]
  · have hb : s.bytes = evBytes before ++ (p ++ evBytes after) := by simp [Prep.bytes, e1]
    have hm := h.1
    rw [h3]
    rcases prefix_or_shorter (hb.symm.trans hm) with hlt | ⟨x, hx⟩
    · rw [hm]; simp at hlt ⊢; omega
    · exfalso
      apply e2
      rw [c01_marker_iff]
      exact ⟨ls, x, hx, h.2⟩

/-- The treatment of complete messages. -/
theorem whole_run_complete {act : List HObs → HAct S U} {v} (hc : WholeMessage act v) (rd : Prep Bytes) {ls rest}
    (h : IsMessage rd.bytes ls rest) :
    ∃ k x, (∀ n, k ≤ n → runHandler act n [] (DStream.new rd) =
      .returned (v (decodedLines ls) true).1 (v (decodedLines ls) true).2.1 (v (decodedLines ls) true).2.2 x) ∧
      x.wasCompleted = true ∧ x.source.bytes = rest ∧ Lazily rd x.source := by
  obtain ⟨k, hh, h1, h2, h3⟩ := reads_to_end hc.reads (DStream.new rd) [] (by simp [Reading])
  obtain ⟨x, h4, h5, h6, h7⟩ := message_result rd (decode_message h)
  have h8 := hc.returns hh true h1
  refine ⟨k + 2, x, ?_, h7, h6, readAll_complete_lazy h h4⟩
  intro n hn
  obtain ⟨m, rfl⟩ : ∃ m, n = m + 2 + k := ⟨n - (k + 2), by omega⟩
  rw [h3 (m + 2)]
  unfold runHandler
  rw [hc.completes hh h1]
  simp only [h4]
  unfold runHandler
  rw [h8]
  simp only [textOf, List.nil_append] at h2
  rw [h2, h5]

theorem returned_act {act : List HObs → HAct S U} {n h d dec s u x} (hr : runHandler act n h d = .returned dec s u x) :
    ∃ h', act h' = .done dec s u := by
  induction n generalizing h d with
  | zero => simp [runHandler] at hr
  | succ n ih =>
    unfold runHandler at hr
    split at hr
    · rename_i h1
      simp at hr
      exact ⟨h, by rw [h1, hr.1, hr.2.1, hr.2.2.1]⟩
    · exact ih hr
    · split at hr
      · simp at hr
      · exact ih hr

/-- Sending on a connection that works. -/
theorem send_ok {r : Reply} (hr : Sendable r) {w : World L S U} (hw : ∀ o ∈ w.writer.plan, o = .ok) :
    ∃ wr, sendReply r w = (.ok (), { w with writer := wr, trace := w.trace ++ [.reply r] }) ∧
      wr.out = w.writer.out ++ wire r ∧ ∀ o ∈ wr.plan, o = .ok := by
  have hst := stops_sendReply (L := L) r w
  rcases sendReply_cases r w with ⟨wr, h1, h2, h3⟩ | ⟨wr, new, h1, _⟩ | ⟨wr, h1, _⟩
  · refine ⟨wr, h2, h3, ?_⟩
    rw [h2] at hst
    rcases hst with ⟨_, oks, e, _⟩ | ⟨e, _⟩
    · intro o ho; exact hw o (by rw [e]; simp [ho])
    · simp at e
  · rw [h1] at hst
    rcases hst with ⟨e, _⟩ | ⟨_, oks, o, e, _, ho⟩
    · simp at e
    · exact absurd (hw o (by rw [e]; simp)) ho
  · exact absurd hr h1

/-- What the handlers do on the messages that `H` describes. -/
def Achieves (C : Config L S U) (H : Handling L S U) : Prop :=
  ∀ s u m b d s' u' b', H s u m b d s' u' b' → ∀ rd : Prep Bytes, rd.bytes = b →
    ∃ k x, (∀ n, k ≤ n → runHandler (C.handleMail s u m) n [] (DStream.new rd) = .returned d s' u' x) ∧
      x.wasCompleted = true ∧ x.source.bytes = b' ∧ Lazily rd x.source

/-- The state after a piece of session that did what the reference says. -/
structure Did (w : World L S U) (evs : List (Ev L)) (st' : SState L S U) (b' : Bytes) (w' : World L S U) : Prop where
  st : w'.st = st'
  bytes : w'.reader.bytes = b'
  trace : w'.trace = w.trace ++ evs
  out : w'.writer.out = w.writer.out ++ outputOf evs
  plan : ∀ o ∈ w'.writer.plan, o = .ok
  lazy : w'.reader = w.reader ∨ Lazily w.reader w'.reader

theorem did_send {w w1 : World L S U} {r : Reply} (hr : Sendable r) (hw : ∀ o ∈ w.writer.plan, o = .ok) {evs : List (Ev L)}
    (h : w1 = { w with cfg := w1.cfg, conn := w1.conn, mail := w1.mail, trace := w.trace ++ evs }) (hev : outputOf evs = [])
    (m : Option (MailMeta L)) :
    ∃ w', (sendReply r >>= fun _ => setMail m) w1 = (.ok (), w') ∧
      Did w (evs ++ [.reply r]) ⟨w1.cfg, w1.conn, m⟩ w.reader.bytes w' := by
  have hw1 : ∀ o ∈ w1.writer.plan, o = .ok := by rw [h]; exact hw
  obtain ⟨wr, h1, h2, h3⟩ := send_ok hr hw1
  refine ⟨_, by rw [SM.bind_ok h1, setMail_eq], ?_⟩
  have e1 : w1.reader = w.reader := by rw [h]
  have e2 : w1.writer = w.writer := by rw [h]
  have e3 : w1.trace = w.trace ++ evs := by rw [h]
  exact ⟨rfl, by simp [e1], by simp [e3], by simp [h2, e2, hev], h3, .inl e1⟩

theorem did_send' {w w1 : World L S U} {r : Reply} (hr : Sendable r) (hw : ∀ o ∈ w.writer.plan, o = .ok) {evs : List (Ev L)}
    (h : w1 = { w with cfg := w1.cfg, conn := w1.conn, mail := w1.mail, trace := w.trace ++ evs }) (hev : outputOf evs = []) :
    ∃ w', sendReply r w1 = (.ok (), w') ∧ Did w (evs ++ [.reply r]) w1.st w.reader.bytes w' := by
  have hw1 : ∀ o ∈ w1.writer.plan, o = .ok := by rw [h]; exact hw
  obtain ⟨wr, h1, h2, h3⟩ := send_ok hr hw1
  refine ⟨_, h1, ?_⟩
  have e1 : w1.reader = w.reader := by rw [h]
  have e2 : w1.writer = w.writer := by rw [h]
  have e3 : w1.trace = w.trace ++ evs := by rw [h]
  exact ⟨rfl, by simp [e1], by simp [e3], by simp [h2, e2, hev], h3, .inl e1⟩

theorem commandOn_some {line : Bytes} {c : Command L} (h : commandOn line = some c) : Command.parse line = .ok c := by
  unfold commandOn at h
  cases hp : (Command.parse line : Except ParseErr (Command L)) with
  | error e => rw [hp] at h; simp [Except.toOption] at h
  | ok c' => rw [hp] at h; simp [Except.toOption] at h; rw [h]

/-- One line, from the reference to the run. -/
theorem exchange_runs {C : Config L S U} (hs : SendableConfig C) {H : Handling L S U} (hH : Achieves C H) {line : Bytes}
    {st st' : SState L S U} {b b' : Bytes} {evs : List (Ev L)} (hx : Exchange C H (commandOn line) st b evs st' b')
    {w : World L S U} (hst : w.st = st) (hb : w.reader.bytes = b) (hw : ∀ o ∈ w.writer.plan, o = .ok) :
    ∃ k w', (∀ fuel, k ≤ fuel → handleLine C fuel line w = (.ok (), w')) ∧ Did w evs st' b' w' := by
  subst hst hb
  generalize hcmd : (commandOn line : Option (Command L)) = cmd at hx
  obtain ⟨rd, wr, s0, u0, mail, tr⟩ := w
  simp only [World.st] at hx
  have const : ∀ {p : M L S U Unit} {evs : List (Ev L)} {st' b'}, (∀ fuel, handleLine C fuel line = p) →
      (∃ w', p ⟨rd, wr, s0, u0, mail, tr⟩ = (.ok (), w') ∧ Did ⟨rd, wr, s0, u0, mail, tr⟩ evs st' b' w') →
      ∃ k w', (∀ fuel, k ≤ fuel → handleLine C fuel line ⟨rd, wr, s0, u0, mail, tr⟩ = (.ok (), w')) ∧
        Did ⟨rd, wr, s0, u0, mail, tr⟩ evs st' b' w' := by
    rintro p evs st' b' h ⟨w', h1, h2⟩
    exact ⟨0, w', fun fuel _ => by rw [h, h1], h2⟩
  cases hx with
  | unrecognized =>
    have hp : ∃ e, (Command.parse line : Except ParseErr (Command L)) = .error e := by
      unfold commandOn at hcmd
      cases hp : (Command.parse line : Except ParseErr (Command L)) with
      | error e => exact ⟨e, rfl⟩
      | ok c => rw [hp] at hcmd; simp [Except.toOption] at hcmd
    obtain ⟨e, hp⟩ := hp
    refine const (p := sendCfg C.commandUnrecognized) (fun fuel => by unfold handleLine; rw [hp]) ?_
    exact did_send' (hs.commandUnrecognized _) hw (evs := []) (by simp) rfl
  | @unimplemented _ _ c hc =>
    have hp := commandOn_some hcmd
    refine const (p := sendCfg C.commandUnimplemented) (fun fuel => by
      unfold handleLine; rw [hp]; cases c <;> simp [Implemented] at hc ⊢) ?_
    exact did_send' (hs.commandUnimplemented _) hw (evs := []) (by simp) rfl
  | @mailAgain s u m b f p =>
    have hp := commandOn_some hcmd
    refine const (p := handleMailCmd C f) (fun fuel => by unfold handleLine; rw [hp]) ?_
    simp only [handleMailCmd, SM.get_bind, Option.isSome_some, if_true, sendCfg]
    exact did_send' (hs.alreadyInMail _) hw (evs := []) (by simp) rfl
  | @mailAccepted s u b f p f' s' u' hf =>
    have hp := commandOn_some hcmd
    refine const (p := handleMailCmd C f) (fun fuel => by unfold handleLine; rw [hp]) ?_
    simp only [handleMailCmd, SM.get_bind, Option.isSome_none, Bool.false_eq_true, if_false, callNewMail, callFilterFrom,
      SM.bind_assoc', SM.modify_bind, emit_bind, SM.pure_bind', hf, sendCfg]
    exact did_send (hs.mailOkay _) hw (evs := [.newMail, .filterFrom f f' .accept]) (by simp) (by simp [outputOf]) _
  | @mailRefused s u b f p f' r s' u' hf =>
    have hp := commandOn_some hcmd
    refine const (p := handleMailCmd C f) (fun fuel => by unfold handleLine; rw [hp]) ?_
    simp only [handleMailCmd, SM.get_bind, Option.isSome_none, Bool.false_eq_true, if_false, callNewMail, callFilterFrom,
      SM.bind_assoc', SM.modify_bind, emit_bind, SM.pure_bind', hf]
    exact did_send' (hs.filterFrom _ _ _ _ _ _ _ hf) hw (evs := [.newMail, .filterFrom f f' (.reject r)]) (by simp)
      (by simp [outputOf])
  | @rcptEarly s u b t p =>
    have hp := commandOn_some hcmd
    refine const (p := handleRcptCmd C t) (fun fuel => by unfold handleLine; rw [hp]) ?_
    simp only [handleRcptCmd, SM.get_bind, sendCfg]
    exact did_send' (hs.rcptBeforeMail _) hw (evs := []) (by simp) rfl
  | @rcptAccepted s u m b t p t' m' s' u' hf =>
    have hp := commandOn_some hcmd
    refine const (p := handleRcptCmd C t) (fun fuel => by unfold handleLine; rw [hp]) ?_
    simp only [handleRcptCmd, SM.get_bind, callFilterTo, SM.bind_assoc', SM.modify_bind, emit_bind, SM.pure_bind', hf, sendCfg,
      setMail_bind]
    exact did_send' (hs.rcptOkay _) hw (evs := [.filterTo t t' m m' .accept]) (by simp) (by simp [outputOf])
  | @rcptRefused s u m b t p t' m' r s' u' hf =>
    have hp := commandOn_some hcmd
    refine const (p := handleRcptCmd C t) (fun fuel => by unfold handleLine; rw [hp]) ?_
    simp only [handleRcptCmd, SM.get_bind, callFilterTo, SM.bind_assoc', SM.modify_bind, emit_bind, SM.pure_bind', hf]
    exact did_send' (hs.filterTo _ _ _ _ _ _ _ _ _ hf) hw (evs := [.filterTo t t' m m' (.reject r)]) (by simp)
      (by simp [outputOf])
  | @dataEarly s u b =>
    have hp := commandOn_some hcmd
    refine ⟨0, ?_⟩
    have := did_send' (w := ⟨rd, wr, s0, u0, none, tr⟩) (w1 := ⟨rd, wr, s0, u0, none, tr⟩) (hs.dataBeforeMail s0) hw (evs := [])
      (by simp) rfl
    obtain ⟨w', h1, h2⟩ := this
    refine ⟨w', fun fuel _ => ?_, h2⟩
    unfold handleLine
    simp only [hp, handleDataCmd, SM.get_bind, sendCfg]
    exact h1
  | @dataNoRcpt s u f b =>
    have hp := commandOn_some hcmd
    refine ⟨0, ?_⟩
    have := did_send (w := ⟨rd, wr, s0, u0, some ⟨f, []⟩, tr⟩) (w1 := ⟨rd, wr, s0, u0, none, tr⟩) (hs.dataBeforeRcpt s0) hw
      (evs := []) (by simp) rfl (some ⟨f, []⟩)
    obtain ⟨w', h1, h2⟩ := this
    refine ⟨w', fun fuel _ => ?_, h2⟩
    unfold handleLine
    simp only [hp, handleDataCmd, SM.get_bind, setMail_bind, List.isEmpty_nil, if_true, sendCfg, SM.bind_assoc']
    exact h1
  | @dataRefused s u m b m' r s' u' hne hf =>
    have hp := commandOn_some hcmd
    refine ⟨0, ?_⟩
    have := did_send (w := ⟨rd, wr, s0, u0, some m, tr⟩)
      (w1 := ⟨rd, wr, s', u', none, tr ++ [.filterData m m' (.reject r)]⟩) (hs.filterData _ _ _ _ _ _ _ hf) hw
      (evs := [.filterData m m' (.reject r)]) (by simp) (by simp [outputOf]) (some m')
    obtain ⟨w', h1, h2⟩ := this
    refine ⟨w', fun fuel _ => ?_, h2⟩
    unfold handleLine
    simp only [hp, handleDataCmd, SM.get_bind, setMail_bind, hne, List.isEmpty_iff, if_false, callFilterData, SM.bind_assoc',
      SM.modify_bind, emit_bind, SM.pure_bind', hf]
    exact h1
  | @dataHandled s u m b m' s' u' d s'' u'' b' hne hf hh =>
    have hp := commandOn_some hcmd
    obtain ⟨wr1, h1, h2, h3⟩ := send_ok (L := L) (hs.dataOkay s') (w := ⟨rd, wr, s', u', none, tr ++ [.filterData m m' .accept]⟩) hw
    obtain ⟨k, x, h4, h5, h6, h7⟩ := hH _ _ _ _ _ _ _ _ hh rd rfl
    have hans : Sendable (answer (C.mailAccepted s'') d) := by
      cases d with
      | accept => exact hs.mailAccepted _
      | reject r =>
        obtain ⟨h', hd⟩ := returned_act (h4 k (Nat.le_refl _))
        exact hs.handleMail _ _ _ _ _ _ _ hd
    obtain ⟨wr2, j1, j2, j3⟩ := send_ok (L := L) hans (w := ⟨x.source, wr1, s'', u'', none,
      tr ++ [.filterData m m' .accept] ++ [.reply (C.dataOkay s')] ++ [.handleMail m'] ++ [.handled d]⟩) h3
    refine ⟨k, ⟨x.source, wr2, s'', u'', none, tr ++ [.filterData m m' .accept] ++ [.reply (C.dataOkay s')] ++ [.handleMail m'] ++
      [.handled d] ++ [.reply (answer (C.mailAccepted s'') d)]⟩, fun fuel hfuel => ?_, ?_⟩
    · unfold handleLine
      simp only [hp, handleDataCmd, SM.get_bind, setMail_bind, hne, List.isEmpty_iff, if_false, callFilterData, SM.bind_assoc',
        SM.modify_bind, emit_bind, SM.pure_bind', hf, sendCfg]
      rw [SM.bind_ok h1]
      have hcall : callHandleMail C fuel m' ⟨rd, wr1, s', u', none, tr ++ [.filterData m m' .accept] ++ [.reply (C.dataOkay s')]⟩ =
          (.ok d, ⟨x.source, wr1, s'', u'', none,
            tr ++ [.filterData m m' .accept] ++ [.reply (C.dataOkay s')] ++ [.handleMail m'] ++ [.handled d]⟩) := by
        unfold callHandleMail
        rw [emit_bind, SM.get_bind]
        simp only [h4 fuel hfuel, h5, if_true]
        rfl
      rw [SM.bind_ok hcall]
      cases d with
      | accept => exact j1
      | reject r => exact j1
    · exact ⟨rfl, h6, by simp, by simp [j2, h2, outputOf], j3, .inr h7⟩

/-- A dialogue, from the reference to the run of as many rounds as there are lines. -/
theorem dialogue_runs {C : Config L S U} (hs : SendableConfig C) {H : Handling L S U} (hH : Achieves C H)
    {st st' : SState L S U} {b b' : Bytes} {evs : List (Ev L)} (hd : Dialogue C H st b evs st' b') :
    ∀ {w : World L S U}, w.st = st → w.reader.bytes = b → (∀ o ∈ w.writer.plan, o = .ok) →
    ∃ k w', (∀ fuel, k ≤ fuel → ∀ m, loop C fuel (lineCount evs + m) w = loop C fuel m w') ∧ Did w evs st' b' w' := by
  induction hd with
  | nil =>
    intro w h1 h2 h3
    exact ⟨0, w, fun _ _ m => by simp [lineCount], ⟨h1, h2, by simp, by simp, h3, .inl rfl⟩⟩
  | @cons st l t evs st1 b1 evs' st2 b2 hl hx hd ih =>
    intro w h1 h2 h3
    have hn : lineCount (.line (l ++ crlf) :: evs ++ evs') = lineCount evs' + 1 := by
      rw [lineCount_append, show lineCount (.line (l ++ crlf) :: evs) = lineCount evs + 1 by simp [lineCount], hx.noLine]
      omega
    obtain ⟨rd, hrd, hb, hnext, hlz⟩ : ∃ rd : Prep Bytes, rd.bytes = t ∧ w.reader.bytes = l ++ crlf ++ t ∧
        nextLine w = (.ok (some (l ++ crlf)), { w with reader := rd }) ∧ Lazily w.reader rd := by
      obtain ⟨s', k1, k2⟩ := c14_next_line w.reader l t hl h2
      rw [Prep.items_flatten] at k2
      exact ⟨s', k2, h2, by simp [nextLine, k1], nextCrlfLine_lazy k1⟩
    obtain ⟨k1, w1, e1, d1⟩ := exchange_runs hs hH hx (w := { w with reader := rd, trace := w.trace ++ [.line (l ++ crlf)] })
      h1 hrd h3
    obtain ⟨k2, w2, e2, d2⟩ := ih d1.st d1.bytes d1.plan
    refine ⟨max k1 k2, w2, fun fuel hf m => ?_, ?_⟩
    · rw [hn, show lineCount evs' + 1 + m = lineCount evs' + m + 1 by omega]
      conv => lhs; unfold loop
      rw [SM.bind_ok hnext]
      simp only [emit_bind]
      rw [SM.bind_ok (e1 fuel (by omega)), e2 fuel (by omega) m]
    · refine ⟨d2.st, d2.bytes, by rw [d2.trace, d1.trace]; simp, by rw [d2.out, d1.out]; simp, d2.plan, .inr ?_⟩
      have hl1 : Lazily w.reader w1.reader := by
        rcases d1.lazy with h | h
        · rw [h]; exact hlz
        · exact hlz.trans h
      rcases d2.lazy with h | h
      · rw [h]; exact hl1
      · exact hl1.trans h

end Server
end Verif
