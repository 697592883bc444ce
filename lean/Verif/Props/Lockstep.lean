import Verif.Spec.Lockstep
import Verif.Proofs.Lockstep
import Verif.Props.SessionEnd
import Verif.Props.SessionExamples
/-
C81: the server answers before it waits for more.
-/
namespace Verif
open Spec Server
variable {L : IpLib} {S U : Type}

theorem exchange_extend {C : Config L S U} {V : Verdict L S U} {cmd : Option (Command L)} {st st' : SState L S U} {b b' : Bytes}
    {evs : List (Ev L)} (h : Exchange C (OnlyComplete V) cmd st b evs st' b') (q : Bytes) :
    Exchange C (OnlyComplete V) cmd st (b ++ q) evs st' (b' ++ q) := by
  cases h with
  | unrecognized => exact .unrecognized
  | unimplemented h => exact .unimplemented h
  | mailAgain => exact .mailAgain
  | mailAccepted h => exact .mailAccepted h
  | mailRefused h => exact .mailRefused h
  | rcptEarly => exact .rcptEarly
  | rcptAccepted h => exact .rcptAccepted h
  | rcptRefused h => exact .rcptRefused h
  | dataEarly => exact .dataEarly
  | dataNoRcpt => exact .dataNoRcpt
  | dataRefused h1 h2 => exact .dataRefused h1 h2
  | dataHandled h1 h2 h3 =>
    obtain ⟨ls, k1, k2⟩ := h3
    exact .dataHandled h1 h2 ⟨ls, ⟨by rw [k1.1]; simp, k1.2⟩, k2⟩

theorem dialogue_extend {C : Config L S U} {V : Verdict L S U} {st st' : SState L S U} {b b' : Bytes}
    {evs : List (Ev L)} (h : Dialogue C (OnlyComplete V) st b evs st' b') (q : Bytes) :
    Dialogue C (OnlyComplete V) st (b ++ q) evs st' (b' ++ q) := by
  induction h with
  | nil => exact .nil
  | cons h1 h2 h3 ih =>
    have := Dialogue.cons h1 (exchange_extend h2 q) ih
    simpa using this

theorem achieves_complete {C : Config L S U} {V : Verdict L S U} (hV : ∀ s u m, WholeMessage (C.handleMail s u m) (V s u m)) :
    Achieves C (OnlyComplete V) := by
  rintro s u m b d s' u' b' ⟨ls, h1, h2⟩ rd rfl
  have := whole_run_complete (hV s u m) rd h1
  rw [h2] at this
  exact this

theorem outputOf_replies (evs : List (Ev L)) : outputOf evs = (repliesOf evs).flatMap wire := by
  induction evs with
  | nil => rfl
  | cons e evs ih => cases e <;> simp [outputOf, repliesOf] <;> simpa [outputOf] using ih

theorem repliesOf_append' (a b : List (Ev L)) : repliesOf (a ++ b) = repliesOf a ++ repliesOf b := by
  induction a with
  | nil => rfl
  | cons e a ih => cases e <;> simp [repliesOf, ih]

/-- What a lazy reader has not touched. -/
theorem untouched {sent later : List (SrcEv Bytes)} {rd : Prep Bytes} (h : rd = Prep.new (sent ++ later) ∨
    Lazily (Prep.new (sent ++ later)) rd) (hb : rd.bytes = evBytes later) : later <:+ rd.src := by
  rcases h with rfl | ⟨before, p, after, f1, f2, f3⟩
  · exact List.suffix_append _ _
  · have f1' : sent ++ later = before ++ .pkt p :: after := f1
    have hl : (evBytes before).length < (evBytes sent).length := by
      rw [hb] at f3
      simp [Prep.bytes, Prep.evs, Prep.new] at f3
      omega
    rw [f2]
    rcases prefix_or_shorter f1'.symm with hlt | ⟨x, hx⟩
    · rcases List.append_eq_append_iff.1 f1' with ⟨x, g1, g2⟩ | ⟨x, g1, g2⟩
      · rw [g1] at hlt; simp at hlt; omega
      · cases x with
        | nil => rw [g1] at hlt; simp at hlt
        | cons y x =>
          simp only [List.cons_append, List.cons.injEq] at g2
          rw [g2.2]; exact List.suffix_append _ _
    · exfalso
      rw [hx] at hl
      simp at hl
      omega

/-! ### C81 The server answers before it waits for more -/

/-- C81. A client sends whole lines and messages (`sent`, in any packets), whatever it sends later (`later`), if anything. Then the
session gets to the head of its loop with everything due for `sent` done and all replies written, and nothing of `later` has been
taken from the connection: a client that waits for the replies before it goes on is never made to wait for ever. -/
theorem c81_lockstep (C : Config L S U) (V : Verdict L S U) (hs : SendableConfig C)
    (hV : ∀ s u m, WholeMessage (C.handleMail s u m) (V s u m)) (sent later : List (SrcEv Bytes)) (outgoing : BSink)
    (ho : ∀ o ∈ outgoing.plan, o = .ok) (s : S) (u : U) (trace : List (Ev L)) (final : SState L S U)
    (h : WholeInput C V s u (evBytes sent) trace final) :
    ∃ k n w, (∀ fuel, k ≤ fuel → interact C fuel (sent ++ later) outgoing s u = loop C fuel (fuel - n) w) ∧
      w.trace = trace ∧ w.cfg = final.cfg ∧ w.conn = final.conn ∧ w.mail = final.mail ∧
      w.writer.out = outgoing.out ++ (repliesOf trace).flatMap wire ∧
      w.reader.bytes = evBytes later ∧ later <:+ w.reader.src := by
  obtain ⟨evs, rfl, hd⟩ := h
  have hd := dialogue_extend hd (evBytes later)
  obtain ⟨wr, h1, h2, h3⟩ := Server.send_ok (L := L) (hs.welcomeBanner s) (w := start (sent ++ later) outgoing s u) ho
  obtain ⟨k, w, e1, d⟩ := dialogue_runs hs (achieves_complete hV) hd
    (w := { start (L := L) (sent ++ later) outgoing s u with
      writer := wr
      trace := (start (L := L) (sent ++ later) outgoing s u).trace ++ [.reply (C.welcomeBanner s)] }) rfl
    (by simp [start, Prep.bytes, Prep.evs, Prep.new]) h3
  refine ⟨max k (lineCount evs), lineCount evs, w, fun fuel hf => ?_, by rw [d.trace]; simp [start], congrArg SState.cfg d.st,
    congrArg SState.conn d.st, congrArg SState.mail d.st, ?_, by simpa using d.bytes, ?_⟩
  · have := e1 fuel (by omega) (fuel - lineCount evs)
    rw [show lineCount evs + (fuel - lineCount evs) = fuel by omega] at this
    rw [← this]
    unfold interact session
    simp only [sendCfg, SM.bind_assoc', SM.get_bind]
    exact SM.bind_ok h1
  · rw [d.out, h2]
    simp only [repliesOf, List.flatMap_cons, start]
    rw [List.append_assoc]
    rw [outputOf_replies]
  · exact untouched d.lazy (by simpa using d.bytes)

/-- What is left of the treatment of DATA once the intermediate reply is out (interact.rs:130-150). -/
def handleAndReply (C : Config L S U) (fuel : Nat) (m : MailMeta L) : M L S U Unit := do
  match ← callHandleMail C fuel m with
  | .accept => sendCfg C.mailAccepted
  | .reject r => Server.sendReply (r.code, r.msg)

/-- C81, inside a transaction: when DATA is accepted, the intermediate reply is written and `handle_mail` called before anything
that comes after the DATA line is taken from the connection. -/
theorem c81_data_prompt (C : Config L S U) (V : Verdict L S U) (hs : SendableConfig C)
    (hV : ∀ s u m, WholeMessage (C.handleMail s u m) (V s u m)) (sent later : List (SrcEv Bytes)) (outgoing : BSink)
    (ho : ∀ o ∈ outgoing.plan, o = .ok) (s : S) (u : U) (input : Bytes) (trace : List (Ev L)) (s1 : S) (u1 : U) (m : MailMeta L)
    (h : WholeInput C V s u input trace ⟨s1, u1, some m⟩) (l : Bytes) (hl : NoCrlf l)
    (hdata : (commandOn (l ++ crlf) : Option (Command L)) = some .data) (hsent : evBytes sent = input ++ (l ++ crlf))
    (hto : m.to ≠ []) (m' : MailMeta L) (s2 : S) (u2 : U) (hf : C.filterData s1 u1 m = (.accept, m', s2, u2)) :
    ∃ k n w, (∀ fuel, k ≤ fuel → interact C fuel (sent ++ later) outgoing s u =
        (handleAndReply C fuel m' >>= fun _ => loop C fuel (fuel - n)) w) ∧
      w.trace = trace ++ [.line (l ++ crlf), .filterData m m' .accept, .reply (C.dataOkay s2)] ∧ w.cfg = s2 ∧ w.conn = u2 ∧
      w.writer.out = outgoing.out ++ (repliesOf w.trace).flatMap wire ∧
      w.reader.bytes = evBytes later ∧ later <:+ w.reader.src := by
  obtain ⟨evs, rfl, hd⟩ := h
  have hd := dialogue_extend hd (l ++ crlf ++ evBytes later)
  obtain ⟨wr, h1, h2, h3⟩ := Server.send_ok (L := L) (hs.welcomeBanner s) (w := start (sent ++ later) outgoing s u) ho
  obtain ⟨k, w, e1, d⟩ := dialogue_runs hs (achieves_complete hV) hd
    (w := { start (L := L) (sent ++ later) outgoing s u with
      writer := wr
      trace := (start (L := L) (sent ++ later) outgoing s u).trace ++ [.reply (C.welcomeBanner s)] }) rfl
    (by simp [start, Prep.bytes, Prep.evs, Prep.new, hsent]) h3
  have hb : w.reader.bytes = l ++ crlf ++ evBytes later := by simpa using d.bytes
  obtain ⟨rd, hnext, hrd⟩ := c14_next_line w.reader l (evBytes later) hl hb
  rw [Prep.items_flatten] at hrd
  have hmail : w.mail = some m := congrArg SState.mail d.st
  have hcfg : w.cfg = s1 := congrArg SState.cfg d.st
  have hconn : w.conn = u1 := congrArg SState.conn d.st
  obtain ⟨wr2, j1, j2, j3⟩ := Server.send_ok (L := L) (hs.dataOkay s2) (w := ⟨rd, w.writer, s2, u2, none,
    w.trace ++ [.line (l ++ crlf)] ++ [.filterData m m' .accept]⟩) d.plan
  refine ⟨max k (lineCount evs + 1), lineCount evs + 1, ⟨rd, wr2, s2, u2, none,
    w.trace ++ [.line (l ++ crlf)] ++ [.filterData m m' .accept] ++ [.reply (C.dataOkay s2)]⟩, fun fuel hf' => ?_,
    by rw [d.trace]; simp [start], rfl, rfl, ?_, hrd, ?_⟩
  · have := e1 fuel (by omega) (fuel - (lineCount evs + 1) + 1)
    rw [show lineCount evs + (fuel - (lineCount evs + 1) + 1) = fuel by omega] at this
    have e2 : interact C fuel (sent ++ later) outgoing s u = loop C fuel (fuel - (lineCount evs + 1) + 1) w := by
      rw [← this]
      unfold interact session
      simp only [sendCfg, SM.bind_assoc', SM.get_bind]
      exact SM.bind_ok h1
    rw [e2]
    conv => lhs; unfold loop
    have hn : nextLine w = (.ok (some (l ++ crlf)), { w with reader := rd }) := by simp [nextLine, hnext]
    rw [SM.bind_ok hn]
    simp only [emit_bind]
    have hp := commandOn_some hdata
    have hline : handleLine C fuel (l ++ crlf) { w with reader := rd, trace := w.trace ++ [.line (l ++ crlf)] } =
        handleAndReply C fuel m' ⟨rd, wr2, s2, u2, none,
          w.trace ++ [.line (l ++ crlf)] ++ [.filterData m m' .accept] ++ [.reply (C.dataOkay s2)]⟩ := by
      unfold handleLine
      simp only [hp, handleDataCmd, SM.get_bind, hmail, setMail_bind, hto, List.isEmpty_iff, if_false, callFilterData,
        SM.bind_assoc', SM.modify_bind, emit_bind, SM.pure_bind', hcfg, hconn, hf, sendCfg]
      exact SM.bind_ok j1
    show SM.bind _ _ _ = SM.bind _ _ _
    unfold SM.bind
    rw [hline]
  · rw [j2]
    simp only [d.out, h2, d.trace, start, List.nil_append, repliesOf_append', List.flatMap_append, outputOf_replies]
    simp [repliesOf]
  · refine untouched (sent := sent) ?_ hrd
    rcases d.lazy with h | h
    · have := nextCrlfLine_lazy hnext
      rw [h] at this
      exact .inr this
    · exact .inr (h.trans (nextCrlfLine_lazy hnext))

namespace Ex
theorem one_line' {st : SState exampleIp Unit Unit} {l t : Bytes} {c evs st1 b1 evs' st2 b2} (hl : cCR ∉ l)
    (hc : commandOn (l ++ crlf) = c)
    (h1 : Exchange exampleConfig (OnlyComplete exampleVerdict) c st t evs st1 b1)
    (h2 : Dialogue exampleConfig (OnlyComplete exampleVerdict) st1 b1 evs' st2 b2) :
    Dialogue exampleConfig (OnlyComplete exampleVerdict) st (l ++ crlf ++ t) (.line (l ++ crlf) :: evs ++ evs') st2 b2 :=
  .cons (noCrlf_of l hl) (by rw [hc]; exact h1) h2
end Ex
open Ex

/-- A whole mail is such input, and what is due for it ends with the reply to the message. -/
theorem c81_example : ∃ before, WholeInput exampleConfig exampleVerdict () ()
    b!"MAIL FROM:<a@b>\r\nRCPT TO:<c@d>\r\nDATA\r\nhi\r\n.\r\n" (before ++ [okayR]) ⟨(), (), none⟩ := by
  refine ⟨[.reply (⟨220⟩, b!"test Service ready"),
        .line b!"MAIL FROM:<a@b>\r\n", .newMail, .filterFrom (some alice) (some alice) .accept, okayR,
        .line b!"RCPT TO:<c@d>\r\n", .filterTo bob bob ⟨some alice, []⟩ ⟨some alice, []⟩ .accept, okayR,
        .line b!"DATA\r\n", .filterData ⟨some alice, [bob]⟩ ⟨some alice, [bob]⟩ .accept,
        .reply (⟨354⟩, b!"Start mail input; end with <CRLF>.<CRLF>"), .handleMail ⟨some alice, [bob]⟩,
        .handled .accept], _, rfl, ?_⟩
  have :=
    one_line' (st := ⟨(), (), none⟩) (l := b!"MAIL FROM:<a@b>") (by decide) p_mail (.mailAccepted rfl) <|
      one_line' (l := b!"RCPT TO:<c@d>") (by decide) p_rcpt (.rcptAccepted rfl) <|
      one_line' (l := b!"DATA") (by decide) p_data (.dataHandled (by simp) rfl
        ⟨[b!"hi"], ⟨rfl, by
          intro l hl; simp at hl; subst hl; exact ⟨noCrlf_of _ (by decide), by decide⟩⟩, rfl⟩) (.nil (b := []))
  exact this

end Verif
