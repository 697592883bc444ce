import Verif.Proofs.AnyHandler
import Verif.Props.Session
import Verif.Props.Commands
/-
C51, C52, C54, C55, and a concrete session.
-/
namespace Verif
open Spec Server
variable {L : IpLib} {S U : Type}

/-! ### A concrete configuration -/

/-- A handler that reads to the end, completes, and accepts what was complete. -/
def readerAct (h : List HObs) : HAct Unit Unit :=
  match h.getLast? with
  | some (.completed ok) => .done (if ok then .accept else .reject ⟨⟨451⟩, b!"Bad"⟩) () ()
  | some (.polled (.ready none)) => .complete
  | _ => .poll

/-- Everything is accepted, except recipients at the host `bad`. -/
def exampleRequired : Required exampleIp Unit Unit where
  filterFrom _ _ f := (.accept, f, (), ())
  filterTo _ _ t m :=
    (match t.hostname with
      | some (.host h) => if h = b!"bad" then .reject ⟨⟨550⟩, b!"No such host"⟩ else .accept
      | _ => .accept, t, m, (), ())
  handleMail _ _ _ := readerAct
  hostname _ := b!"test"

abbrev exampleConfig : Config exampleIp Unit Unit := exampleRequired.toConfig

def exampleVerdict : Verdict exampleIp Unit Unit := fun _ _ _ _ ok =>
  (if ok then .accept else .reject ⟨⟨451⟩, b!"Bad"⟩, (), ())

theorem readerAct_reads (h : List HObs) (hh : Reading h) : readerAct h = .poll := by
  unfold readerAct
  split
  · rename_i o ho
    obtain ⟨r, h1, _⟩ := hh _ (List.mem_of_getLast? ho)
    simp at h1
  · rename_i ho
    obtain ⟨r, h1, h2⟩ := hh _ (List.mem_of_getLast? ho)
    simp at h1
    exact absurd h1.symm h2
  · rfl

theorem example_whole (s u m) : WholeMessage (exampleConfig.handleMail s u m) (exampleVerdict s u m) where
  reads := readerAct_reads
  completes h _ := by simp [exampleRequired, Required.toConfig, readerAct]
  returns h ok _ := by simp [exampleRequired, Required.toConfig, readerAct, exampleVerdict]

/-! ### C55 -/

/-- C55. The default replies: codes and texts. -/
theorem c55_texts (R : Required L S U) (s : S) :
    (R.toConfig.welcomeBanner s).1.code = 220 ∧ (R.toConfig.welcomeBanner s).2 = R.hostname s ++ b!" Service ready" ∧
    R.toConfig.mailOkay s = (⟨250⟩, b!"Okay") ∧ R.toConfig.rcptOkay s = (⟨250⟩, b!"Okay") ∧
    R.toConfig.dataOkay s = (⟨354⟩, b!"Start mail input; end with <CRLF>.<CRLF>") ∧
    R.toConfig.mailAccepted s = (⟨250⟩, b!"Okay") ∧
    R.toConfig.alreadyInMail s = (⟨503⟩, b!"Bad sequence of commands") ∧
    R.toConfig.rcptBeforeMail s = (⟨503⟩, b!"Bad sequence of commands") ∧
    R.toConfig.dataBeforeRcpt s = (⟨503⟩, b!"Bad sequence of commands") ∧
    R.toConfig.dataBeforeMail s = (⟨503⟩, b!"Bad sequence of commands") ∧
    R.toConfig.commandUnimplemented s = (⟨502⟩, b!"Command not implemented") ∧
    R.toConfig.commandUnrecognized s = (⟨500⟩, b!"Command not recognized") := by
  refine ⟨rfl, ?_, rfl, rfl, rfl, rfl, rfl, rfl, rfl, rfl, rfl, rfl⟩
  simp [Required.toConfig]

/-- C55. With a printable hostname all default replies can be sent; so if the refusals can be, too, the whole
configuration is sendable (and C46, C50, C53 apply). -/
theorem c55_sendable (R : Required L S U) (hn : ∀ s, ∀ b ∈ R.hostname s, TextByte b)
    (hf : ∀ s u f r f' s' u', R.filterFrom s u f = (.reject r, f', s', u') → Sendable (r.code, r.msg))
    (ht : ∀ s u t m r t' m' s' u', R.filterTo s u t m = (.reject r, t', m', s', u') → Sendable (r.code, r.msg))
    (hm : ∀ s u m h r s' u', R.handleMail s u m h = .done (.reject r) s' u' → Sendable (r.code, r.msg)) :
    SendableConfig R.toConfig := by
  have fixed : ∀ c t, (∀ b ∈ t, TextByte b) → Sendable (c, t) := fun _ _ h => h
  refine ⟨?_, ?_, ?_, ?_, ?_, ?_, ?_, ?_, ?_, ?_, ?_, hf, ht, ?_, hm⟩
  · intro s b hb
    simp only [Required.toConfig, List.append_assoc, List.mem_append] at hb
    rcases hb with hb | hb | hb
    · exact hn s b hb
    · revert b; decide +kernel
    · revert b; decide +kernel
  all_goals first
    | (intro s u m r m' s' u' h; simp [Required.toConfig] at h)
    | (intro s; refine fixed _ _ ?_; decide +kernel)

/-- C55. On the wire the default replies are what RFC 5321 asks for; the banner too, on one line if the hostname
has at most 492 characters. -/
theorem c55_wire (R : Required L S U) (s : S) (hn : ∀ b ∈ R.hostname s, TextByte b) (hl : (R.hostname s).length ≤ 492) :
    ∃ w, wire (R.toConfig.welcomeBanner s) = [w] ∧ IsReplyWire w 220 true (R.hostname s ++ b!" Service ready") := by
  have hs : Sendable (R.toConfig.welcomeBanner s) := by
    intro b hb
    simp only [Required.toConfig, List.append_assoc, List.mem_append] at hb
    rcases hb with hb | hb | hb
    · exact hn b hb
    · revert b; decide +kernel
    · revert b; decide +kernel
  have := c46_wire _ hs (by simp [Required.toConfig, ReplyCode.serviceReady])
  have e2 : (R.toConfig.welcomeBanner s).2 = R.hostname s ++ b!" Service ready" := by simp [Required.toConfig]
  have e1 : (R.toConfig.welcomeBanner s).1.code.toNat = 220 := rfl
  rw [e1, e2] at this
  generalize ht : R.hostname s ++ b!" Service ready" = t at this
  generalize wire (R.toConfig.welcomeBanner s) = ws at this
  have hlen : t.length ≤ 506 := by rw [← ht]; simp; omega
  cases this with
  | nothing => simp at ht
  | last _ _ h => exact ⟨_, rfl, h⟩
  | more h1 h2 h3 h4 =>
    rename_i t1 w1 rest ws1
    have : rest.length = 0 := by simp at hlen; omega
    exact absurd (List.length_eq_zero_iff.1 this) h3

theorem example_sendable : SendableConfig exampleConfig := by
  refine c55_sendable _ (by intro s; simp only [exampleRequired]; decide +kernel) ?_ ?_ ?_
  · intro s u f r f' s' u' h; simp [exampleRequired] at h
  · intro s u t m r t' m' s' u' h
    simp only [exampleRequired, Prod.mk.injEq] at h
    have := h.1
    split at this
    · split at this
      · simp at this; subst this; intro b hb; revert b; decide +kernel
      · simp at this
    · simp at this
  · intro s u m h r s' u' hd
    simp only [exampleRequired, Required.toConfig, readerAct] at hd
    split at hd
    · rename_i ok _
      cases ok <;> simp at hd
      subst hd
      intro b hb; revert b; decide +kernel
    · simp at hd
    · simp at hd

/-! ### C51 -/

private theorem handles_of_call {C : Config L S U} {fuel m} {w w' : World L S U} {d}
    (h : callHandleMail C fuel m w = (.ok d, w')) :
    Handles C fuel w.cfg w.conn m w.reader.bytes d w'.cfg w'.conn w'.reader.bytes := by
  unfold callHandleMail at h
  simp only [SM.get_bind, emit_bind] at h
  generalize hr : runHandler _ fuel [] _ = r at h
  cases r with
  | running => simp [SM.running] at h
  | panicked p => simp [SM.panic] at h
  | returned d' s u stream =>
    by_cases hx : stream.wasCompleted = true
    · simp only [hx, if_true, SM.modify_bind, emit_bind] at h
      cases h
      exact ⟨_, _, rfl, hr, hx, rfl⟩
    · simp [hx, SM.panic] at h

/-- C51. A handler that does not touch its stream after `complete()`, whatever else it does with it: if the session
goes on, the connection is right after the end-of-data marker, or at its end if there is none. -/
theorem c51_partial (C : Config L S U) (hC : ∀ s u m, NoPollAfterComplete (C.handleMail s u m)) (fuel : Nat)
    (m : MailMeta L) (w w' : World L S U) (d : Decision) (h : callHandleMail C fuel m w = (.ok d, w')) :
    AfterMessage w.reader.bytes w'.reader.bytes := by
  obtain ⟨rd, x, h1, h2, h3, h4⟩ := handles_of_call h
  rw [← h1, ← h4]
  exact runHandler_position (hC _ _ _) rd h2 h3

/-- C51, for whole sessions: each message is followed by the commands that were sent after it. -/
theorem c51_session_partial (C : Config L S U) (hC : ∀ s u m, NoPollAfterComplete (C.handleMail s u m)) (fuel : Nat)
    (incoming : List (SrcEv Bytes)) (outgoing : BSink) (s : S) (u : U) (w : World L S U)
    (h : interact C fuel incoming outgoing s u = (.ok (), w)) :
    CompleteSession C (fun _ _ _ b _ _ _ b' => AfterMessage b b') s u (evBytes incoming) w.trace
      ⟨w.cfg, w.conn, w.mail⟩ := by
  have := interact_out C fuel incoming outgoing s u
  rw [h] at this
  dsimp only at this
  cases this with
  | ok j1 j2 j3 j4 =>
    refine ⟨_, _, j1, j2.mono ?_, j3⟩
    rintro s u m b d s' u' b' ⟨rd, x, rfl, h2, h3, rfl⟩
    exact runHandler_position (hC _ _ _) rd h2 h3
  | banner j1 _ j2 j3 j4 => exact absurd rfl (j2.not_ok ())
  | cut j1 j2 j3 j4 j8 j5 j6 j7 => exact absurd rfl (j5.not_ok ())

/-- C51. Any handler at all: the connection is right after some line holding only a dot, or at its end. -/
theorem c51_any_handler (C : Config L S U) (fuel : Nat) (m : MailMeta L) (w w' : World L S U) (d : Decision)
    (h : callHandleMail C fuel m w = (.ok d, w')) :
    AfterDot w.reader.bytes w'.reader.bytes ∨ w'.reader.bytes = [] := by
  obtain ⟨rd, x, h1, h2, h3, h4⟩ := handles_of_call h
  rw [← h1, ← h4]
  exact runHandler_anywhere rd h2 h3

/-- C51. A handler that returns without having completed its stream makes the server panic. -/
theorem c51_not_completed (C : Config L S U) (fuel : Nat) (m : MailMeta L) (w : World L S U) (d : Decision) (s : S)
    (u : U) (x : DStream) (h : runHandler (C.handleMail w.cfg w.conn m) fuel [] (DStream.new w.reader) = .returned d s u x)
    (hx : x.wasCompleted = false) : (callHandleMail C fuel m w).1 = .panic .notCompleted := by
  unfold callHandleMail
  simp only [SM.get_bind, emit_bind, h, hx]
  rfl

/-- C51. A handler that never gets to the end of the message before it calls `complete()` makes the server panic:
here one that calls it at once. -/
theorem c51_early_complete (C : Config L S U) (fuel : Nat) (m : MailMeta L) (w : World L S U)
    (h : C.handleMail w.cfg w.conn m [] = .complete) :
    (callHandleMail C (fuel + 1) m w).1 = .panic .notFinished := by
  unfold callHandleMail
  simp only [SM.get_bind, emit_bind]
  unfold runHandler
  rw [h]
  simp [DStream.complete, DStream.new, SM.panic]

/-- A handler that goes on reading after `complete()`, and completes again. -/
def greedyAct (h : List HObs) : HAct Unit Unit :=
  match h.length with
  | 0 => .poll
  | 1 => .complete
  | 2 => .poll
  | 3 => .poll
  | 4 => .complete
  | _ => .done .accept () ()

def greedyConfig : Config exampleIp Unit Unit := { exampleConfig with handleMail := fun _ _ _ => greedyAct }

/-- C51 is false of handlers in general: one that polls again after `complete()` takes the next command of the
client for message text, and the session goes on. -/
theorem c51_refuted : ∃ (fuel : Nat) (m : MailMeta exampleIp) (w w' : World exampleIp Unit Unit) (d : Decision),
    callHandleMail greedyConfig fuel m w = (.ok d, w') ∧
    w.reader.bytes = b!".\r\nMAIL FROM:<a@b>\r\n.\r\nQUIT\r\n" ∧ w'.reader.bytes = b!"QUIT\r\n" ∧
    ¬ AfterMessage w.reader.bytes w'.reader.bytes := by
  have p1 : (DStream.new (Prep.new [.pkt b!".\r\n", .pkt b!"MAIL FROM:<a@b>\r\n.\r\nQUIT\r\n"])).pollNext =
      (.ready none, ⟨Prep.new [.pkt b!"MAIL FROM:<a@b>\r\n.\r\nQUIT\r\n"], .finished, []⟩) := by
    unfold DStream.pollNext DStream.new
    rw [DStream.pollLoop]
    simp [scanBuf, scanWindows, scanLast, Prep.pollNext, Prep.new]
    rw [DStream.pollLoop]
    simp [scanBuf, scanWindows, scanLast, Prep.pollNext, Prep.new]
  have p2 : (DStream.mk (Prep.new [.pkt b!"MAIL FROM:<a@b>\r\n.\r\nQUIT\r\n"]) .completed []).pollNext =
      (.ready (some b!"MAIL FROM:<a@b>\r\n"), ⟨Prep.new [], .finished, b!"QUIT\r\n"⟩) := by
    unfold DStream.pollNext
    rw [DStream.pollLoop]
    simp [scanBuf, scanWindows, scanLast, Prep.pollNext, Prep.new]
    rw [DStream.pollLoop]
    simp [scanBuf, scanWindows, scanLast, Prep.pollNext, Prep.new]
  refine ⟨6, ⟨none, []⟩,
    ⟨Prep.new [.pkt b!".\r\n", .pkt b!"MAIL FROM:<a@b>\r\n.\r\nQUIT\r\n"], ⟨[], []⟩, (), (), none, []⟩,
    ⟨⟨[], some b!"QUIT\r\n", 0⟩, ⟨[], []⟩, (), (), none, [.handleMail ⟨none, []⟩, .handled .accept]⟩, .accept, ?_, rfl, rfl, ?_⟩
  · unfold callHandleMail
    simp only [SM.get_bind, emit_bind]
    have hr : runHandler (greedyConfig.handleMail () () ⟨none, []⟩) 6 []
        (DStream.new (Prep.new [.pkt b!".\r\n", .pkt b!"MAIL FROM:<a@b>\r\n.\r\nQUIT\r\n"])) =
        .returned .accept () () ⟨⟨[], some b!"QUIT\r\n", 0⟩, .completed, []⟩ := by
      simp only [greedyConfig]
      rw [runHandler]
      simp only [greedyAct, List.length_nil, p1]
      rw [runHandler]
      simp only [greedyAct, List.length_append, List.length_nil, List.length_cons, DStream.complete]
      simp only [reduceCtorEq, if_false, ne_eq, not_true_eq_false, if_false]
      rw [runHandler]
      simp only [greedyAct, List.length_append, List.length_nil, List.length_cons, p2]
      rw [runHandler]
      simp only [greedyAct, List.length_append, List.length_nil, List.length_cons, DStream.pollNext, if_true]
      rw [runHandler]
      simp only [greedyAct, List.length_append, List.length_nil, List.length_cons, DStream.complete]
      simp [Prep.prepend, Prep.new]
      rw [runHandler]
      simp [greedyAct]
    rw [hr]
    rfl
  · rintro (⟨ls, h⟩ | ⟨h, h'⟩)
    · have h1 := decode_message h
      have h2 : decode .crLfPassed b!".\r\nMAIL FROM:<a@b>\r\n.\r\nQUIT\r\n" =
          ([], some b!"MAIL FROM:<a@b>\r\n.\r\nQUIT\r\n") := decode_marker
      have h3 : (decode .crLfPassed b!".\r\nMAIL FROM:<a@b>\r\n.\r\nQUIT\r\n").2 = some b!"QUIT\r\n" := by
        rw [show (decode .crLfPassed b!".\r\nMAIL FROM:<a@b>\r\n.\r\nQUIT\r\n") = _ from h1]; rfl
      rw [h2] at h3
      revert h3
      decide
    · revert h'
      decide

/-! ### C52 -/

private theorem exchange_line_free {C : Config L S U} {H : Handling L S U} {cmd st b evs st' b'}
    (h : Exchange C H cmd st b evs st' b') {x : Bytes} : Ev.line x ∉ evs := by
  cases h <;> simp

/-- C52. Every line that is executed was received with its CRLF. -/
theorem c52_complete_lines (C : Config L S U) (fuel : Nat) (incoming : List (SrcEv Bytes)) (outgoing : BSink)
    (s : S) (u : U) (l : Bytes) (h : Ev.line l ∈ (interact C fuel incoming outgoing s u).2.trace) :
    ∃ body, l = body ++ crlf ∧ NoCrlf body := by
  have key : ∀ {H : Handling L S U} {st b evs st' b'}, Dialogue C H st b evs st' b' → Ev.line l ∈ evs →
      ∃ body, l = body ++ crlf ∧ NoCrlf body := by
    intro H st b evs st' b' hd
    induction hd with
    | nil => simp
    | cons h1 h2 h3 ih =>
      intro hm
      simp only [List.cons_append, List.mem_cons, Ev.line.injEq, List.mem_append] at hm
      rcases hm with rfl | hm | hm
      · exact ⟨_, rfl, h1⟩
      · exact absurd hm (exchange_line_free h2)
      · exact ih hm
  have := interact_out C fuel incoming outgoing s u
  generalize (interact C fuel incoming outgoing s u).2 = w at this h
  generalize (interact C fuel incoming outgoing s u).1 = r at this
  cases this with
  | ok j1 j2 j3 j4 => rw [j1] at h; simp at h; exact key j2 h
  | rounds j1 j2 j3 j4 => rw [j1] at h; simp at h; exact key j2 h
  | banner j1 _ j2 j3 j4 => rw [j1] at h; cases r <;> simp [errEv] at h
  | cut j1 j2 j3 j4 j8 j5 j6 j7 =>
    rw [j1] at h
    simp only [List.cons_append, List.mem_cons, reduceCtorEq, List.mem_append, Ev.line.injEq, false_or] at h
    rcases h with (h | rfl | h) | h
    · exact key j2 h
    · exact ⟨_, rfl, j3⟩
    · exact absurd (List.mem_append_left _ h) (exchange_line_free j4)
    · cases r <;> simp [errEv] at h

private theorem exchange_frame {C : Config L S U} {V : Verdict L S U} {cmd st b evs st' b'}
    (h : Exchange C (ByText V) cmd st b evs st' b') (hne : b' ≠ []) :
    ∃ y, b = y ++ b' ∧ ∀ t, Exchange C (ByText V) cmd st (y ++ t) evs st' t := by
  cases h with
  | unrecognized => exact ⟨[], rfl, fun t => .unrecognized⟩
  | unimplemented h => exact ⟨[], rfl, fun t => .unimplemented h⟩
  | mailAgain => exact ⟨[], rfl, fun t => .mailAgain⟩
  | mailAccepted h => exact ⟨[], rfl, fun t => .mailAccepted h⟩
  | mailRefused h => exact ⟨[], rfl, fun t => .mailRefused h⟩
  | rcptEarly => exact ⟨[], rfl, fun t => .rcptEarly⟩
  | rcptAccepted h => exact ⟨[], rfl, fun t => .rcptAccepted h⟩
  | rcptRefused h => exact ⟨[], rfl, fun t => .rcptRefused h⟩
  | dataEarly => exact ⟨[], rfl, fun t => .dataEarly⟩
  | dataNoRcpt => exact ⟨[], rfl, fun t => .dataNoRcpt⟩
  | dataRefused h h' => exact ⟨[], rfl, fun t => .dataRefused h h'⟩
  | dataHandled h h' h3 =>
    rcases h3 with ⟨ls, ⟨rfl, k2⟩, k3⟩ | ⟨ls, part, k1, k2, k3⟩
    · exact ⟨_, rfl, fun t => .dataHandled h h' (.inl ⟨ls, ⟨rfl, k2⟩, k3⟩)⟩
    · exact absurd k2 hne

private theorem dialogue_frame {C : Config L S U} {V : Verdict L S U} {st b evs st' b'}
    (h : Dialogue C (ByText V) st b evs st' b') (hne : b' ≠ []) :
    ∃ y, b = y ++ b' ∧ ∀ t, Dialogue C (ByText V) st (y ++ t) evs st' t := by
  induction h with
  | nil => exact ⟨[], rfl, fun t => .nil⟩
  | @cons st l t evs st1 b1 evs' st2 b2 h1 h2 h3 ih =>
    obtain ⟨y, e, hy⟩ := ih hne
    have hb1 : b1 ≠ [] := by
      intro hc
      rw [hc] at e
      simp at e
      exact hne e.2
    obtain ⟨z, e', hz⟩ := exchange_frame h2 hb1
    refine ⟨l ++ crlf ++ (z ++ y), by rw [e', e]; simp, ?_⟩
    intro t'
    have := Dialogue.cons h1 (hz (y ++ t')) (hy t')
    simpa using this

/-- C52. An unterminated rest of the input has no effect: the session is the same, event by event and byte by byte,
as if it had not been sent. -/
theorem c52_tail_ignored (C : Config L S U) (V : Verdict L S U) (hV : ∀ s u m, WholeMessage (C.handleMail s u m) (V s u m))
    (n1 n2 : Nat) (in1 in2 : List (SrcEv Bytes)) (outgoing : BSink) (s : S) (u : U) (w1 w2 : World L S U)
    (h1 : interact C n1 in1 outgoing s u = (.ok (), w1)) (h2 : interact C n2 in2 outgoing s u = (.ok (), w2))
    (hin : evBytes in1 = evBytes in2 ++ w1.reader.bytes) :
    w1.trace = w2.trace ∧ w1.writer.out = w2.writer.out ∧ w1.cfg = w2.cfg ∧ w1.conn = w2.conn ∧ w1.mail = w2.mail ∧
      w2.reader.bytes = [] := by
  have k1 := interact_out C n1 in1 outgoing s u
  rw [h1] at k1
  dsimp only at k1
  have k2 := interact_out C n2 in2 outgoing s u
  rw [h2] at k2
  dsimp only at k2
  cases k1 with
  | banner j1 _ j2 j3 j4 => exact absurd rfl (j2.not_ok ())
  | cut j1 j2 j3 j4 j8 j5 j6 j7 => exact absurd rfl (j5.not_ok ())
  | @ok _ evs1 a1 a2 a3 a4 =>
    cases k2 with
    | banner j1 _ j2 j3 j4 => exact absurd rfl (j2.not_ok ())
    | cut j1 j2 j3 j4 j8 j5 j6 j7 => exact absurd rfl (j5.not_ok ())
    | ok b1 b2 b3 b4 =>
      have a2 := a2.mono (fun _ _ _ _ _ _ _ _ hh => handles_byText hV hh)
      have b2 := b2.mono (fun _ _ _ _ _ _ _ _ hh => handles_byText hV hh)
      have hy : Dialogue C (ByText V) ⟨s, u, none⟩ (evBytes in2) evs1 w1.st [] := by
        by_cases hne : w1.reader.bytes = []
        · rw [hin, hne, List.append_nil] at a2
          exact a2
        · obtain ⟨y, e, hy⟩ := dialogue_frame a2 hne
          have hy := hy []
          rw [hin] at e
          obtain rfl := List.append_cancel_right e
          rwa [List.append_nil] at hy
      have hnil : NoCrlf [] := by rintro ⟨a, b, h⟩; simp [crlf] at h
      obtain ⟨e1, e2, e3⟩ := Dialogue.det (byText_det V) hy hnil b2 b3
      have hst : w1.st = w2.st := e2
      have htr : w1.trace = w2.trace := by rw [a1, b1, e1]
      refine ⟨htr, by rw [a4, b4, htr], ?_, ?_, ?_, e3.symm⟩
      · exact congrArg SState.cfg hst
      · exact congrArg SState.conn hst
      · exact congrArg SState.mail hst

/-! ### A concrete session -/

section Example

namespace Ex

theorem noCrlf_of (l : Bytes) (h : cCR ∉ l) : NoCrlf l := fun hi => h (hi.subset (by simp [crlf]))

abbrev alice : Email exampleIp := ⟨b!"a", some (.host b!"b")⟩
abbrev bob : Email exampleIp := ⟨b!"c", some (.host b!"d")⟩
abbrev mallory : Email exampleIp := ⟨b!"m", some (.host b!"bad")⟩

theorem commandOn_sendTo (c : Command exampleIp) (h : WFCommand c) {t : Bytes} (ht : t = c.sendTo) :
    commandOn t = some c := by
  rw [ht]
  simp only [commandOn, c27_roundtrip exampleIp_laws c h]
  rfl

theorem wf_host (h : Bytes) (c : UInt8) (r : Bytes) (e : h = c :: r) (hc : Alnum c)
    (hr : ∀ x ∈ r, AlnumDash x) : WFDomain (.host h : Domain exampleIp) := by
  refine ⟨[h], by simp, ?_, rfl⟩
  intro l hl
  simp at hl
  subst hl
  exact ⟨c, r, e, hc, hr⟩

theorem wf_alice : WFEmail alice := by
  refine ⟨⟨b!"a", .inl ⟨⟨[b!"a"], by simp, ?_, rfl⟩, rfl⟩⟩, ?_⟩
  · intro l hl; simp at hl; subst hl; exact ⟨by simp, by decide +kernel⟩
  · intro d hd; cases hd; exact wf_host _ 98 [] rfl (by decide +kernel) (by simp)
theorem wf_bob : WFEmail bob := by
  refine ⟨⟨b!"c", .inl ⟨⟨[b!"c"], by simp, ?_, rfl⟩, rfl⟩⟩, ?_⟩
  · intro l hl; simp at hl; subst hl; exact ⟨by simp, by decide +kernel⟩
  · intro d hd; cases hd; exact wf_host _ 100 [] rfl (by decide +kernel) (by simp)
theorem wf_mallory : WFEmail mallory := by
  refine ⟨⟨b!"m", .inl ⟨⟨[b!"m"], by simp, ?_, rfl⟩, rfl⟩⟩, ?_⟩
  · intro l hl; simp at hl; subst hl; exact ⟨by simp, by decide +kernel⟩
  · intro d hd; cases hd; exact wf_host _ 98 b!"ad" rfl (by decide +kernel) (by decide +kernel)

theorem wf_none : WFParams [] := ⟨by simp, by simp⟩

theorem p_mail : (commandOn (b!"MAIL FROM:<a@b>" ++ crlf) : Option (Command exampleIp)) =
    some (.mail (some alice) []) :=
  commandOn_sendTo (.mail (some alice) []) ⟨by rintro e he; cases he; exact wf_alice, wf_none⟩ (by decide +kernel)
theorem p_rcpt : (commandOn (b!"RCPT TO:<c@d>" ++ crlf) : Option (Command exampleIp)) =
    some (.rcpt bob []) := commandOn_sendTo (.rcpt bob []) ⟨wf_bob, wf_none⟩ (by decide +kernel)
theorem p_bad : (commandOn (b!"RCPT TO:<m@bad>" ++ crlf) : Option (Command exampleIp)) =
    some (.rcpt mallory []) := commandOn_sendTo (.rcpt mallory []) ⟨wf_mallory, wf_none⟩ (by decide +kernel)
theorem p_data : (commandOn (b!"DATA" ++ crlf) : Option (Command exampleIp)) = some .data :=
  commandOn_sendTo .data trivial (by decide +kernel)
theorem p_quit : (commandOn (b!"QUIT" ++ crlf) : Option (Command exampleIp)) = some .quit :=
  commandOn_sendTo .quit trivial (by decide +kernel)
theorem p_rset : (commandOn (b!"RSET" ++ crlf) : Option (Command exampleIp)) = some .rset :=
  commandOn_sendTo .rset trivial (by decide +kernel)
theorem p_ehlo : (commandOn (b!"EHLO b" ++ crlf) : Option (Command exampleIp)) = some (.ehlo (.host b!"b")) :=
  commandOn_sendTo (.ehlo (.host b!"b")) (wf_host _ 98 [] rfl (by decide +kernel) (by simp)) (by decide +kernel)

theorem one_line {st : SState exampleIp Unit Unit} {l t : Bytes} {c evs st1 b1 evs' st2 b2} (hl : cCR ∉ l)
    (hc : commandOn (l ++ crlf) = c)
    (h1 : Exchange exampleConfig (ByText exampleVerdict) c st t evs st1 b1)
    (h2 : Dialogue exampleConfig (ByText exampleVerdict) st1 b1 evs' st2 b2) :
    Dialogue exampleConfig (ByText exampleVerdict) st (l ++ crlf ++ t) (.line (l ++ crlf) :: evs ++ evs') st2 b2 :=
  .cons (noCrlf_of l hl) (by rw [hc]; exact h1) h2

abbrev okayR : Ev exampleIp := .reply (⟨250⟩, b!"Okay")

end Ex
open Ex

/-- What happens in a session with one refused and one accepted recipient and a message. -/
theorem c42_example (incoming : List (SrcEv Bytes)) (hin : evBytes incoming =
      b!"MAIL FROM:<a@b>\r\nRCPT TO:<m@bad>\r\nRCPT TO:<c@d>\r\nDATA\r\nhi\r\n.\r\nQUIT\r\n")
    (plan : List SendRes) (hw : ∀ o ∈ plan, o = .ok) :
    ∃ n0 w, (∀ n, n0 ≤ n → interact exampleConfig n incoming ⟨[], plan⟩ () () = (.ok (), w)) ∧ w.mail = none ∧
      w.trace = [.reply (⟨220⟩, b!"test Service ready"),
        .line b!"MAIL FROM:<a@b>\r\n", .newMail, .filterFrom (some alice) (some alice) .accept, okayR,
        .line b!"RCPT TO:<m@bad>\r\n", .filterTo mallory mallory ⟨some alice, []⟩ ⟨some alice, []⟩
          (.reject ⟨⟨550⟩, b!"No such host"⟩), .reply (⟨550⟩, b!"No such host"),
        .line b!"RCPT TO:<c@d>\r\n", .filterTo bob bob ⟨some alice, []⟩ ⟨some alice, []⟩ .accept, okayR,
        .line b!"DATA\r\n", .filterData ⟨some alice, [bob]⟩ ⟨some alice, [bob]⟩ .accept,
        .reply (⟨354⟩, b!"Start mail input; end with <CRLF>.<CRLF>"), .handleMail ⟨some alice, [bob]⟩,
        .handled .accept, okayR,
        .line b!"QUIT\r\n", .reply (⟨502⟩, b!"Command not implemented")] := by
  obtain ⟨n0, w, h1, h2, h3⟩ := c42_total exampleConfig exampleVerdict example_sendable example_whole incoming
    ⟨[], plan⟩ hw () ()
  refine ⟨n0, w, h1, ?_⟩
  have key : ∀ tr, CompleteSession exampleConfig (ByText exampleVerdict) () () (evBytes incoming) tr ⟨(), (), none⟩ →
      w.mail = none ∧ w.trace = tr := by
    intro tr hd
    obtain ⟨e1, e2⟩ := (h2 _ _).1 hd
    exact ⟨(congrArg SState.mail e2).symm, e1.symm⟩
  apply key
  rw [hin]
  refine ⟨_, [], rfl, ?_, by rintro ⟨a, b, h⟩; simp [crlf] at h⟩
  have :=
    one_line (st := ⟨(), (), none⟩) (l := b!"MAIL FROM:<a@b>") (by decide) p_mail (.mailAccepted rfl) <|
      one_line (l := b!"RCPT TO:<m@bad>") (by decide) p_bad (.rcptRefused rfl) <|
      one_line (l := b!"RCPT TO:<c@d>") (by decide) p_rcpt (.rcptAccepted rfl) <|
      one_line (l := b!"DATA") (by decide) p_data (.dataHandled (by simp) rfl
        (.inl ⟨[b!"hi"], ⟨rfl, by
          intro l hl; simp at hl; subst hl; exact ⟨noCrlf_of _ (by decide), by decide⟩⟩, rfl⟩)) <|
      one_line (l := b!"QUIT") (by decide) p_quit (.unimplemented (by simp [Implemented])) (.nil (b := []))
  exact this

/-! ### C54 -/

/-- C54 is false of this server: EHLO is answered with 502, RSET leaves the transaction open (the next MAIL is
refused with 503), and after QUIT further commands are executed. -/
theorem c54_refuted (incoming : List (SrcEv Bytes)) (hin : evBytes incoming =
      b!"EHLO b\r\nMAIL FROM:<a@b>\r\nRSET\r\nMAIL FROM:<a@b>\r\nQUIT\r\nDATA\r\n")
    (plan : List SendRes) (hw : ∀ o ∈ plan, o = .ok) :
    ∃ n0 w, (∀ n, n0 ≤ n → interact exampleConfig n incoming ⟨[], plan⟩ () () = (.ok (), w)) ∧
      w.trace = [.reply (⟨220⟩, b!"test Service ready"),
        .line b!"EHLO b\r\n", .reply (⟨502⟩, b!"Command not implemented"),
        .line b!"MAIL FROM:<a@b>\r\n", .newMail, .filterFrom (some alice) (some alice) .accept, okayR,
        .line b!"RSET\r\n", .reply (⟨502⟩, b!"Command not implemented"),
        .line b!"MAIL FROM:<a@b>\r\n", .reply (⟨503⟩, b!"Bad sequence of commands"),
        .line b!"QUIT\r\n", .reply (⟨502⟩, b!"Command not implemented"),
        .line b!"DATA\r\n", .reply (⟨503⟩, b!"Bad sequence of commands")] := by
  obtain ⟨n0, w, h1, h2, h3⟩ := c42_total exampleConfig exampleVerdict example_sendable example_whole incoming
    ⟨[], plan⟩ hw () ()
  refine ⟨n0, w, h1, ?_⟩
  have key : ∀ tr, CompleteSession exampleConfig (ByText exampleVerdict) () () (evBytes incoming) tr
      ⟨(), (), some ⟨some alice, []⟩⟩ → w.trace = tr := fun tr hd => ((h2 _ _).1 hd).1.symm
  apply key
  rw [hin]
  refine ⟨_, [], rfl, ?_, by rintro ⟨a, b, h⟩; simp [crlf] at h⟩
  have :=
    one_line (st := ⟨(), (), none⟩) (l := b!"EHLO b") (by decide) p_ehlo (.unimplemented (by simp [Implemented])) <|
      one_line (l := b!"MAIL FROM:<a@b>") (by decide) p_mail (.mailAccepted rfl) <|
      one_line (l := b!"RSET") (by decide) p_rset (.unimplemented (by simp [Implemented])) <|
      one_line (l := b!"MAIL FROM:<a@b>") (by decide) p_mail .mailAgain <|
      one_line (l := b!"QUIT") (by decide) p_quit (.unimplemented (by simp [Implemented])) <|
      one_line (l := b!"DATA") (by decide) p_data .dataNoRcpt (.nil (b := []))
  exact this

/-- C54, what the server does instead, in every state: these four commands get the command_unimplemented reply and
have no other effect. -/
theorem c54_partial (C : Config L S U) (fuel : Nat) (line : Bytes) (w : World L S U) (c : Command L)
    (hp : Command.parse line = .ok c) (hc : c = .quit ∨ c = .rset ∨ (∃ d, c = .ehlo d) ∨ ∃ d, c = .helo d) :
    OnlyReply w (C.commandUnimplemented w.cfg) (handleLine C fuel line w) := by
  apply c47_unimplemented C fuel line w c hp <;> intros <;> rcases hc with rfl | rfl | ⟨d, rfl⟩ | ⟨d, rfl⟩ <;> simp

end Example

end Verif
