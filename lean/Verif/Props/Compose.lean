import Verif.Spec.Compose
import Verif.Props.SessionEnd
/-
C85, C86: sessions are put together from their parts; the wording of a line does not matter.
-/
namespace Verif.Spec
variable {L : IpLib} {S U : Type}

theorem Whole.byText {V : Verdict L S U} {s u m b d s' u' b'} (h : Whole V s u m b d s' u' b') :
    ByText V s u m b d s' u' b' := .inl h

theorem Exchange.whole_frame {C : Config L S U} {V : Verdict L S U} {cmd st b evs st' b'}
    (h : Exchange C (Whole V) cmd st b evs st' b') :
    ∃ y, b = y ++ b' ∧ ∀ t, Exchange C (Whole V) cmd st (y ++ t) evs st' t := by
  cases h with
  | unrecognized => exact ⟨[], rfl, fun t => .unrecognized⟩
  | unimplemented h => exact ⟨[], rfl, fun t => .unimplemented h⟩
  | mailAgain => exact ⟨[], rfl, fun t => .mailAgain⟩
  | mailAccepted h => exact ⟨[], rfl, fun t => .mailAccepted h⟩
  | mailRefused h => exact ⟨[], rfl, fun t => .mailRefused h⟩
  | rcptEarly => exact ⟨[], rfl, fun t => .rcptEarly⟩
  | rcptAccepted h => exact ⟨[], rfl, fun t => .rcptAccepted h⟩
  | rcptRefused h => exact ⟨[], rfl, fun t => .rcptRefused h⟩
  | dataEarly => exact ⟨[], rfl, fun t => .dataEarly⟩
  | dataNoRcpt => exact ⟨[], rfl, fun t => .dataNoRcpt⟩
  | dataRefused h h' => exact ⟨[], rfl, fun t => .dataRefused h h'⟩
  | dataHandled h h' h3 =>
    obtain ⟨ls, ⟨rfl, k2⟩, k3⟩ := h3
    exact ⟨_, rfl, fun t => .dataHandled h h' ⟨ls, ⟨rfl, k2⟩, k3⟩⟩

theorem Dialogue.whole_frame {C : Config L S U} {V : Verdict L S U} {st b evs st' b'}
    (h : Dialogue C (Whole V) st b evs st' b') :
    ∃ y, b = y ++ b' ∧ ∀ t, Dialogue C (Whole V) st (y ++ t) evs st' t := by
  induction h with
  | nil => exact ⟨[], rfl, fun t => .nil⟩
  | @cons st l t evs st1 b1 evs' st2 b2 h1 h2 h3 ih =>
    obtain ⟨y, e, hy⟩ := ih
    obtain ⟨z, e', hz⟩ := h2.whole_frame
    refine ⟨l ++ crlf ++ (z ++ y), by rw [e', e]; simp, ?_⟩
    intro t'
    have := Dialogue.cons h1 (hz (y ++ t')) (hy t')
    simpa using this

/-- A dialogue that goes on to the end passes through every dialogue over the same bytes. -/
theorem Dialogue.split {C : Config L S U} {H : Handling L S U} (hH : H.Det) {st b evs st' b' tr fin left}
    (h1 : Dialogue C H st b evs st' b') (h2 : Dialogue C H st b tr fin left) (hl : NoCrlf left) :
    ∃ tr', tr = evs ++ tr' ∧ Dialogue C H st' b' tr' fin left := by
  induction h1 generalizing tr with
  | nil => exact ⟨tr, rfl, h2⟩
  | @cons st l t evs st1 b1 evs' st2' b2' k1 k2 k3 ih =>
    generalize hx : l ++ crlf ++ t = x at h2
    cases h2 with
    | nil => rw [← hx] at hl; exact absurd hl not_noCrlf
    | cons j1 j2 j3 =>
      obtain ⟨rfl, rfl⟩ := firstCrlf_unique k1 j1 hx
      obtain ⟨rfl, rfl, rfl⟩ := k2.det hH j2
      obtain ⟨tr', rfl, h⟩ := ih j3
      exact ⟨tr', by simp, h⟩

theorem SameMeaning.exchange {C : Config L S U} {H : Handling L S U} {cmd cmd' st b evs st' b'}
    (hm : SameMeaning cmd cmd') (h : Exchange C H cmd st b evs st' b') : Exchange C H cmd' st b evs st' b' := by
  cases hm with
  | noCommand => exact h
  | data => exact h
  | mail =>
    cases h with
    | unimplemented h => exact absurd trivial h
    | mailAgain => exact .mailAgain
    | mailAccepted h => exact .mailAccepted h
    | mailRefused h => exact .mailRefused h
  | rcpt =>
    cases h with
    | unimplemented h => exact absurd trivial h
    | rcptEarly => exact .rcptEarly
    | rcptAccepted h => exact .rcptAccepted h
    | rcptRefused h => exact .rcptRefused h
  | others h1 h2 =>
    cases h with
    | unimplemented h => exact .unimplemented h2
    | _ => exact absurd trivial h1

end Verif.Spec

namespace Verif
open Spec Server
variable {L : IpLib} {S U : Type}

/-! ### C85 Sessions are put together from their parts -/

/-- What a normal session is, with the bytes it leaves. -/
theorem session_dialogue (C : Config L S U) (V : Verdict L S U)
    (hV : ∀ s u m, WholeMessage (C.handleMail s u m) (V s u m)) {fuel : Nat} {incoming : List (SrcEv Bytes)}
    {outgoing : BSink} {s : S} {u : U} {w : World L S U} (h : interact C fuel incoming outgoing s u = (.ok (), w)) :
    ∃ evs, w.trace = .reply (C.welcomeBanner s) :: evs ∧
      Dialogue C (ByText V) ⟨s, u, none⟩ (evBytes incoming) evs ⟨w.cfg, w.conn, w.mail⟩ w.reader.bytes ∧
      NoCrlf w.reader.bytes := by
  have := interact_out C fuel incoming outgoing s u
  rw [h] at this
  dsimp only at this
  cases this with
  | ok j1 j2 j3 j4 => exact ⟨_, j1, j2.mono (fun _ _ _ _ _ _ _ _ hh => handles_byText hV hh), j3⟩
  | banner j1 _ j2 j3 j4 => exact absurd rfl (j2.not_ok ())
  | cut j1 j2 j3 j4 j8 j5 j6 j7 => exact absurd rfl (j5.not_ok ())

/-- C85. What the server does does not depend on what comes later: if after some bytes it expects a command, then whatever is
sent after them, the session starts with exactly the events of the session over those bytes alone. -/
theorem c85_prefix (C : Config L S U) (V : Verdict L S U)
    (hV : ∀ s u m, WholeMessage (C.handleMail s u m) (V s u m)) (n1 n2 : Nat) (in1 in2 : List (SrcEv Bytes))
    (out1 out2 : BSink) (s : S) (u : U) (w1 w2 : World L S U) (left more : Bytes)
    (h1 : interact C n1 in1 out1 s u = (.ok (), w1)) (h2 : interact C n2 in2 out2 s u = (.ok (), w2))
    (hc : ExpectsCommand C V s u (evBytes in1) left) (hin : evBytes in2 = evBytes in1 ++ more) :
    w1.trace <+: w2.trace ∧ w1.reader.bytes = left := by
  obtain ⟨evs1, t1, d1, l1⟩ := session_dialogue C V hV h1
  obtain ⟨evs2, t2, d2, l2⟩ := session_dialogue C V hV h2
  obtain ⟨evs, st, d, l⟩ := hc
  obtain ⟨rfl, _, e⟩ := Dialogue.det (byText_det V) (d.mono fun _ _ _ _ _ _ _ _ h => h.byText) l d1 l1
  obtain ⟨y, e1, hy⟩ := d.whole_frame
  have h3 := (hy (left ++ more)).mono fun _ _ _ _ _ _ _ _ h => h.byText
  rw [← List.append_assoc, ← e1, ← hin] at h3
  obtain ⟨tr', rfl, _⟩ := h3.split (byText_det V) d2 l2
  exact ⟨⟨tr', by rw [t1, t2]; simp⟩, e.symm⟩

/-- C85. One connection or two: if after the bytes `a` the server expects a command and no transaction is open, then `a` and
`b` sent over one connection have the effect of `a` sent over one connection and `b` over the next, starting with the
configuration and the connection data the first one left: the same callbacks and replies (except for the second banner), the
same bytes on the wire, the same final state. -/
theorem c85_two_connections (C : Config L S U) (V : Verdict L S U)
    (hV : ∀ s u m, WholeMessage (C.handleMail s u m) (V s u m)) (n1 n2 n3 : Nat) (in1 in2 in3 : List (SrcEv Bytes))
    (out1 out2 out3 : BSink) (s : S) (u : U) (w1 w2 w3 : World L S U)
    (h1 : interact C n1 in1 out1 s u = (.ok (), w1)) (h2 : interact C n2 in2 out2 w1.cfg w1.conn = (.ok (), w2))
    (h3 : interact C n3 in3 out3 s u = (.ok (), w3))
    (hc : ExpectsCommand C V s u (evBytes in1) []) (hm : w1.mail = none) (hin : evBytes in3 = evBytes in1 ++ evBytes in2) :
    w3.trace = w1.trace ++ w2.trace.tail ∧
    w3.writer.out = out3.out ++ (repliesOf w1.trace ++ (repliesOf w2.trace).tail).flatMap wire ∧
    w3.cfg = w2.cfg ∧ w3.conn = w2.conn ∧ w3.mail = w2.mail ∧ w3.reader.bytes = w2.reader.bytes := by
  obtain ⟨evs1, t1, d1, l1⟩ := session_dialogue C V hV h1
  obtain ⟨evs2, t2, d2, l2⟩ := session_dialogue C V hV h2
  obtain ⟨evs3, t3, d3, l3⟩ := session_dialogue C V hV h3
  obtain ⟨evs, st, d, l⟩ := hc
  obtain ⟨rfl, e2, e⟩ := Dialogue.det (byText_det V) (d.mono fun _ _ _ _ _ _ _ _ h => h.byText) l d1 l1
  obtain ⟨y, e1, hy⟩ := d.whole_frame
  rw [List.append_nil] at e1
  have h4 := (hy (evBytes in2)).mono fun _ _ _ _ _ _ _ _ h => h.byText
  rw [← e1, ← hin] at h4
  obtain ⟨tr', rfl, h5⟩ := h4.split (byText_det V) d3 l3
  rw [e2, hm] at h5
  obtain ⟨rfl, e3, e4⟩ := h5.det (byText_det V) l3 d2 l2
  simp only [SState.mk.injEq] at e3
  have ht : w3.trace = w1.trace ++ w2.trace.tail := by rw [t1, t2, t3]; simp
  have hr : ∀ (a b : List (Ev L)), repliesOf (a ++ b) = repliesOf a ++ repliesOf b := by
    intro a b
    induction a with
    | nil => rfl
    | cons x a ih => cases x <;> simp [repliesOf, ih]
  obtain ⟨new, e5, e6⟩ := c46_output C n3 in3 out3 s u _ w3 h3
  refine ⟨ht, ?_, e3.1, e3.2.1, e3.2.2, e4⟩
  rw [e5, e6 rfl, List.append_nil, ht, hr, t2]
  simp [repliesOf]

/-! ### C86 The wording of a line does not matter -/

/-- C86. One line: two lines that mean the same have the same effect in every state, whatever the writer and the mail handler
do. -/
theorem c86_line (C : Config L S U) (fuel : Nat) (l l' : Bytes)
    (h : SameMeaning (L := L) (commandOn l) (commandOn l')) (w : World L S U) :
    handleLine C fuel l w = handleLine C fuel l' w := by
  unfold handleLine
  unfold commandOn at h
  cases h1 : (Command.parse l : Except ParseErr (Command L)) <;> cases h2 : (Command.parse l' : Except ParseErr (Command L)) <;>
    simp only [h1, h2, Except.toOption] at h ⊢
  · cases h
  · cases h
  · rename_i c c'
    cases h with
    | mail => rfl
    | rcpt => rfl
    | data => rfl
    | others h3 h4 => cases c <;> cases c' <;> first | rfl | exact absurd trivial h3 | exact absurd trivial h4

/-- C86. In a session: if a line that is read as a command is replaced by one that means the same, the session is the same:
the same callbacks with the same arguments and results, the same replies, the same bytes on the wire, the same final state. -/
theorem c86_session (C : Config L S U) (V : Verdict L S U)
    (hV : ∀ s u m, WholeMessage (C.handleMail s u m) (V s u m)) (n1 n2 : Nat) (in1 in2 : List (SrcEv Bytes))
    (outgoing : BSink) (s : S) (u : U) (w1 w2 : World L S U) (before l l' after : Bytes)
    (h1 : interact C n1 in1 outgoing s u = (.ok (), w1)) (h2 : interact C n2 in2 outgoing s u = (.ok (), w2))
    (hc : ExpectsCommand C V s u before []) (hl : NoCrlf l) (hl' : NoCrlf l')
    (hsame : SameMeaning (L := L) (commandOn (l ++ crlf)) (commandOn (l' ++ crlf)))
    (hin1 : evBytes in1 = before ++ (l ++ crlf ++ after)) (hin2 : evBytes in2 = before ++ (l' ++ crlf ++ after)) :
    unworded w1.trace = unworded w2.trace ∧ w1.writer.out = w2.writer.out ∧
    w1.cfg = w2.cfg ∧ w1.conn = w2.conn ∧ w1.mail = w2.mail ∧ w1.reader.bytes = w2.reader.bytes := by
  obtain ⟨evs1, t1, d1, l1⟩ := session_dialogue C V hV h1
  obtain ⟨evs2, t2, d2, l2⟩ := session_dialogue C V hV h2
  obtain ⟨evs, st, d, l0⟩ := hc
  obtain ⟨y, e1, hy⟩ := d.whole_frame
  rw [List.append_nil] at e1
  subst e1
  have hd := fun t => (hy t).mono fun _ _ _ _ _ _ _ _ h => Whole.byText h
  have k1 := hd (l ++ crlf ++ after)
  have k2 := hd (l' ++ crlf ++ after)
  rw [← hin1] at k1
  rw [← hin2] at k2
  obtain ⟨r1, rfl, f1⟩ := k1.split (byText_det V) d1 l1
  obtain ⟨r2, rfl, f2⟩ := k2.split (byText_det V) d2 l2
  generalize hx : l ++ crlf ++ after = x at f1
  cases f1 with
  | nil => rw [← hx] at l1; exact absurd l1 not_noCrlf
  | @cons _ l0 t0 ev0 st1 b1 ev1 _ _ j1 j2 j3 =>
    obtain ⟨rfl, rfl⟩ := firstCrlf_unique hl j1 hx
    have f3 := Dialogue.cons hl' (hsame.exchange j2) j3
    obtain ⟨e2, e3, e4⟩ := f3.det (byText_det V) l1 f2 l2
    simp only [SState.mk.injEq] at e3
    subst e2
    have hu : unworded w1.trace = unworded w2.trace := by
      rw [t1, t2]
      simp [unworded]
    refine ⟨hu, ?_, e3.1, e3.2.1, e3.2.2, e4⟩
    have hr : ∀ a : List (Ev L), repliesOf (unworded a) = repliesOf a := by
      intro a
      induction a with
      | nil => rfl
      | cons x a ih =>
        cases x <;> simp only [unworded, List.map_cons, repliesOf] <;> first | exact ih | exact congrArg _ ih
    obtain ⟨new1, o1, o2⟩ := c46_output C n1 in1 outgoing s u _ w1 h1
    obtain ⟨new2, o3, o4⟩ := c46_output C n2 in2 outgoing s u _ w2 h2
    rw [o1, o3, o2 rfl, o4 rfl, ← hr, hu, hr]

/-- C86. All spellings the grammar has for a command mean the same: upper and lower case in the verb, blanks, brackets, source
routes, and any parameters (`CmdLine` is the grammar of C29 and C30). -/
theorem c86_spelling (hL : IpLaws L) (l l' : Bytes) (c c' : Command L) (h : CmdLine L l c) (h' : CmdLine L l' c')
    (hs : SameMeaning (some c) (some c')) : SameMeaning (L := L) (commandOn l) (commandOn l') := by
  obtain ⟨d, h1, h2⟩ := (c30_language hL l).2 c h
  obtain ⟨d', h3, h4⟩ := (c30_language hL l').2 c' h'
  have e1 : commandOn l = some d := by simp only [commandOn, h1]; rfl
  have e2 : commandOn l' = some d' := by simp only [commandOn, h3]; rfl
  rw [e1, e2]
  cases hs with
  | mail =>
    cases d <;> simp only [SameCommand, reduceCtorEq] at h2
    cases d' <;> simp only [SameCommand, reduceCtorEq] at h4
    rw [h2.1, h4.1]
    exact .mail
  | rcpt =>
    cases d <;> simp only [SameCommand, reduceCtorEq] at h2
    cases d' <;> simp only [SameCommand, reduceCtorEq] at h4
    rw [h2.1, h4.1]
    exact .rcpt
  | data =>
    cases d <;> simp only [SameCommand, reduceCtorEq] at h2
    cases d' <;> simp only [SameCommand, reduceCtorEq] at h4
    exact .data
  | others h5 h6 =>
    refine .others ?_ ?_
    · cases d <;> cases c <;> first | exact h5 | exact absurd trivial h5 | (simp [SameCommand] at h2)
    · cases d' <;> cases c' <;> first | exact h6 | exact absurd trivial h6 | (simp [SameCommand] at h4)

/-! ### Concrete sessions -/

open Ex

private theorem nilNoCrlf : NoCrlf [] := by rintro ⟨a, b, h⟩; simp [crlf] at h

private theorem whole_line {st : SState exampleIp Unit Unit} {l t : Bytes} {c evs st1 b1 evs' st2 b2} (hl : cCR ∉ l)
    (hc : commandOn (l ++ crlf) = c)
    (h1 : Exchange exampleConfig (Whole exampleVerdict) c st t evs st1 b1)
    (h2 : Dialogue exampleConfig (Whole exampleVerdict) st1 b1 evs' st2 b2) :
    Dialogue exampleConfig (Whole exampleVerdict) st (l ++ crlf ++ t) (.line (l ++ crlf) :: evs ++ evs') st2 b2 :=
  .cons (noCrlf_of l hl) (by rw [hc]; exact h1) h2

/-- A transaction with a refused recipient and a message, up to the end of the message: no transaction is open. -/
private theorem transaction : ∃ evs, Dialogue exampleConfig (Whole exampleVerdict) ⟨(), (), none⟩
    b!"MAIL FROM:<a@b>\r\nRCPT TO:<m@bad>\r\nRCPT TO:<c@d>\r\nDATA\r\nhi\r\n.\r\n" evs ⟨(), (), none⟩ [] := by
  have :=
    whole_line (st := ⟨(), (), none⟩) (l := b!"MAIL FROM:<a@b>") (by decide) p_mail (.mailAccepted rfl) <|
      whole_line (l := b!"RCPT TO:<m@bad>") (by decide) p_bad (.rcptRefused rfl) <|
      whole_line (l := b!"RCPT TO:<c@d>") (by decide) p_rcpt (.rcptAccepted rfl) <|
      whole_line (l := b!"DATA") (by decide) p_data (.dataHandled (by simp) rfl
        (⟨[b!"hi"], ⟨rfl, by
          intro l hl; simp at hl; subst hl; exact ⟨noCrlf_of _ (by decide), by decide⟩⟩, rfl⟩)) (.nil (b := []))
  exact ⟨_, this⟩

/-- C85 is met by that transaction followed by any bytes, cut into packets in any way. -/
theorem c85_example (in1 in2 in3 : List (SrcEv Bytes))
    (h1 : evBytes in1 = b!"MAIL FROM:<a@b>\r\nRCPT TO:<m@bad>\r\nRCPT TO:<c@d>\r\nDATA\r\nhi\r\n.\r\n")
    (h3 : evBytes in3 = evBytes in1 ++ evBytes in2) :
    ∃ n w1 w2 w3, interact exampleConfig n in1 ⟨[], []⟩ () () = (.ok (), w1) ∧
      interact exampleConfig n in2 ⟨[], []⟩ w1.cfg w1.conn = (.ok (), w2) ∧
      interact exampleConfig n in3 ⟨[], []⟩ () () = (.ok (), w3) ∧
      ExpectsCommand exampleConfig exampleVerdict () () (evBytes in1) [] ∧ w1.mail = none ∧
      w3.trace = w1.trace ++ w2.trace.tail := by
  obtain ⟨n1, w1, k1, k2, _⟩ := c42_total exampleConfig exampleVerdict example_sendable example_whole in1 ⟨[], []⟩ (by simp) () ()
  obtain ⟨n2, w2, k3, _, _⟩ := c42_total exampleConfig exampleVerdict example_sendable example_whole in2 ⟨[], []⟩ (by simp) () ()
  obtain ⟨n3, w3, k4, _, _⟩ := c42_total exampleConfig exampleVerdict example_sendable example_whole in3 ⟨[], []⟩ (by simp) () ()
  have e1 := k1 (n1 + n2 + n3) (by omega)
  have e2 := k3 (n1 + n2 + n3) (by omega)
  have e3 := k4 (n1 + n2 + n3) (by omega)
  obtain ⟨evs, hd⟩ := transaction
  rw [← h1] at hd
  have hc : ExpectsCommand exampleConfig exampleVerdict () () (evBytes in1) [] := ⟨evs, _, hd, nilNoCrlf⟩
  have hm : w1.mail = none := by
    have := (k2 _ _).1 ⟨evs, [], rfl, hd.mono fun _ _ _ _ _ _ _ _ h => h.byText, nilNoCrlf⟩
    exact (congrArg SState.mail this.2).symm
  exact ⟨_, w1, w2, w3, e1, e2, e3, hc, hm,
    (c85_two_connections exampleConfig exampleVerdict example_whole _ _ _ in1 in2 in3 _ _ _ () () w1 w2 w3 e1 e2 e3 hc hm h3).1⟩

private theorem p_rcpt' : (commandOn (b!"rCPt tO: \t@b:c@d X=1 Y \t" ++ crlf) : Option (Command exampleIp)) =
    some (.rcpt bob [(b!"X", some b!"1"), (b!"Y", none)]) := by
  have h : (match (commandOn (b!"rCPt tO: \t@b:c@d X=1 Y \t" ++ crlf) : Option (Command exampleIp)) with
      | some (.rcpt ⟨a, some (.host b)⟩ m) => decide (a = b!"c" ∧ b = b!"d" ∧ m = [(b!"X", some b!"1"), (b!"Y", none)])
      | _ => false) = true := by decide +kernel
  split at h
  · rename_i hc
    simp only [decide_eq_true_eq] at h
    obtain ⟨rfl, rfl, rfl⟩ := h
    exact hc
  · cases h

/-- C86 is met by two spellings of a RCPT command in the middle of a session. -/
theorem c86_example (in1 in2 : List (SrcEv Bytes))
    (h1 : evBytes in1 = b!"MAIL FROM:<a@b>\r\nRCPT TO:<c@d>\r\nDATA\r\nhi\r\n.\r\n")
    (h2 : evBytes in2 = b!"MAIL FROM:<a@b>\r\nrCPt tO: \t@b:c@d X=1 Y \t\r\nDATA\r\nhi\r\n.\r\n") :
    ∃ n w1 w2, interact exampleConfig n in1 ⟨[], []⟩ () () = (.ok (), w1) ∧
      interact exampleConfig n in2 ⟨[], []⟩ () () = (.ok (), w2) ∧
      ExpectsCommand exampleConfig exampleVerdict () () b!"MAIL FROM:<a@b>\r\n" [] ∧
      SameMeaning (L := exampleIp) (commandOn (b!"RCPT TO:<c@d>" ++ crlf)) (commandOn (b!"rCPt tO: \t@b:c@d X=1 Y \t" ++ crlf)) ∧
      w1.writer.out = w2.writer.out := by
  obtain ⟨n1, w1, k1, _, _⟩ := c42_total exampleConfig exampleVerdict example_sendable example_whole in1 ⟨[], []⟩ (by simp) () ()
  obtain ⟨n2, w2, k3, _, _⟩ := c42_total exampleConfig exampleVerdict example_sendable example_whole in2 ⟨[], []⟩ (by simp) () ()
  have e1 := k1 (n1 + n2) (by omega)
  have e2 := k3 (n1 + n2) (by omega)
  have hd := whole_line (st := ⟨(), (), none⟩) (l := b!"MAIL FROM:<a@b>") (by decide) p_mail (.mailAccepted rfl)
    (.nil (b := []))
  have hc : ExpectsCommand exampleConfig exampleVerdict () () b!"MAIL FROM:<a@b>\r\n" [] := ⟨_, _, hd, nilNoCrlf⟩
  have hs : SameMeaning (L := exampleIp) (commandOn (b!"RCPT TO:<c@d>" ++ crlf))
      (commandOn (b!"rCPt tO: \t@b:c@d X=1 Y \t" ++ crlf)) := by
    rw [p_rcpt, p_rcpt']; exact .rcpt
  exact ⟨_, w1, w2, e1, e2, hc, hs,
    (c86_session exampleConfig exampleVerdict example_whole _ _ in1 in2 _ () () w1 w2 b!"MAIL FROM:<a@b>\r\n" _ _
      b!"DATA\r\nhi\r\n.\r\n" e1 e2 hc (noCrlf_of _ (by decide)) (noCrlf_of _ (by decide)) hs h1 h2).2.1⟩

end Verif
