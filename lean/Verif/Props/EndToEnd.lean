import Verif.Spec.EndToEnd
import Verif.Props.SessionEnd
import Verif.Props.Sink
import Verif.Props.TestSuite
import Verif.Props.Lockstep
/-
C79: client and server together.
-/
namespace Verif
open Spec Server
variable {L : IpLib} {S U : Type}

theorem dataBytes_wire (chunks : List Bytes) : dataBytes chunks = wireForm chunks.flatten := by
  obtain ⟨k, hk⟩ := c08_sink_succeeds ⟨[], []⟩ chunks (by simp)
  have := c08_sink_output _ _ _ hk
  unfold dataBytes
  rw [hk]
  simpa using this

theorem each_append {fs gs : List (S → Reply)} {rs ts : List Reply} (h1 : Each fs rs) (h2 : Each gs ts) :
    Each (fs ++ gs) (rs ++ ts) := by
  induction fs generalizing rs with
  | nil => cases rs with
    | nil => exact h2
    | cons r rs => exact h1.elim
  | cons f fs ih => cases rs with
    | nil => exact h1.elim
    | cons r rs => exact ⟨h1.1, ih h1.2⟩

/-- A command line in a dialogue. -/
theorem Dialogue.command {C : Config L S U} {H : Handling L S U} (hL : IpLaws L) {c : Command L} (hc : WFCommand c)
    {st st1 st2 : SState L S U} {t b1 b2 : Bytes} {evs evs' : List (Ev L)} (h1 : Exchange C H (some c) st t evs st1 b1)
    (h2 : Dialogue C H st1 b1 evs' st2 b2) : Dialogue C H st (c.sendTo ++ t) (.line c.sendTo :: evs ++ evs') st2 b2 := by
  have hp := c27_roundtrip hL c hc
  obtain ⟨l, hl, hn⟩ := c31_one_line hL _ c hp
  have : commandOn (l ++ crlf) = some c := by rw [← hl]; simp only [commandOn, hp]; rfl
  rw [hl]
  exact .cons hn (by rw [this]; exact h1) h2

section
variable {C : Config L S U} {V : Verdict L S U} {box : S → List (MailMeta L × Bytes × Bool)}

/-- What a piece of input does, whatever comes after it. -/
def Does (C : Config L S U) (V : Verdict L S U) (box : S → List (MailMeta L × Bytes × Bool)) (st : SState L S U) (b : Bytes)
    (replies : List (S → Reply)) (mail : Option (MailMeta L)) (new : List (MailMeta L × Bytes × Bool)) : Prop :=
  ∃ evs s' u', box s' = box st.cfg ++ new ∧ Each replies (repliesOf evs) ∧
    ∀ rest evs' st2 b2, Dialogue C (ByText V) ⟨s', u', mail⟩ rest evs' st2 b2 →
      Dialogue C (ByText V) st (b ++ rest) (evs ++ evs') st2 b2

theorem does_rcpts (hL : IpLaws L) : ∀ (ts : List (Email L × Params)) (s : S) (u : U) (m : MailMeta L),
    (∀ t ∈ ts, WFCommand (.rcpt t.1 t.2)) →
    (∀ t ∈ ts, ∀ s u e, ∃ s' u', C.filterTo s u t.1 e = (.accept, t.1, e, s', u') ∧ box s' = box s) →
    Does C V box ⟨s, u, some m⟩ (ts.flatMap fun t => (Command.rcpt t.1 t.2).sendTo) (ts.map fun _ => C.rcptOkay)
      (some ⟨m.from_, m.to ++ ts.map (·.1)⟩) []
  | [], s, u, m, _, _ => ⟨[], s, u, by simp, trivial, by intro rest evs' st2 b2 h; simpa using h⟩
  | t :: ts, s, u, m, h, hC => by
    obtain ⟨s1, u1, h1, h2⟩ := hC t (by simp) s u m
    obtain ⟨evs, s', u', h3, h4, h5⟩ := does_rcpts hL ts s1 u1 ⟨m.from_, m.to ++ [t.1]⟩ (fun x hx => h x (by simp [hx]))
      fun x hx => hC x (by simp [hx])
    refine ⟨.line (Command.rcpt t.1 t.2).sendTo :: [.filterTo t.1 t.1 m m .accept, .reply (C.rcptOkay s1)] ++ evs, s', u',
      by rw [h3]; exact congrArg (· ++ []) h2, ?_, ?_⟩
    · exact ⟨⟨s1, rfl⟩, h4⟩
    intro rest evs' st2 b2 hd
    have := Dialogue.command hL (h t (by simp)) (.rcptAccepted h1) (h5 rest evs' st2 b2 (by simpa using hd))
    simpa using this

theorem does_mail (hL : IpLaws L) (i : Item L) (hC : ∀ m, i = .mail m → Accepts C V box m) (s : S) (u : U) (hi : i.WF) :
    Does C V box ⟨s, u, none⟩ i.bytes (i.replies C) none i.received := by
  cases i with
  | other c =>
    refine ⟨.line c.sendTo :: [.reply (C.commandUnimplemented s)], s, u, by simp [Item.received], ⟨⟨s, rfl⟩, trivial⟩, ?_⟩
    intro rest evs' st2 b2 hd
    exact Dialogue.command hL hi.1 (.unimplemented hi.2) hd
  | mail m =>
    obtain ⟨w1, w2, w3⟩ := hi
    have hC := hC m rfl
    obtain ⟨s1, u1, h1, h2⟩ := hC.from_ (C.newMail s) u
    obtain ⟨evs, s2, u2, h3, h4, h5⟩ := does_rcpts (V := V) (box := box) hL m.rcpts s1 u1 ⟨m.from_, []⟩ w2 hC.to
    simp only [List.nil_append] at h5
    obtain ⟨s3, u3, h6, h7⟩ := hC.data s2 u2
    obtain ⟨s4, u4, h8, h9⟩ := hC.stores s3 u3
    refine ⟨.line (Command.mail m.from_ m.params).sendTo ::
        [.newMail, .filterFrom m.from_ m.from_ .accept, .reply (C.mailOkay s1)] ++ (evs ++
        (.line (Command.data : Command L).sendTo :: [.filterData ⟨m.from_, m.rcpts.map (·.1)⟩ ⟨m.from_, m.rcpts.map (·.1)⟩ .accept,
          .reply (C.dataOkay s3), .handleMail ⟨m.from_, m.rcpts.map (·.1)⟩, .handled .accept,
          .reply (answer (C.mailAccepted s4) .accept)])), s4, u4, ?_, ?_, ?_⟩
    · rw [h9, h7, h3, h2, hC.newMail]; simp [Item.received, OutMail.envelope]
    · refine ⟨⟨s1, rfl⟩, ?_⟩
      show Each _ (repliesOf (evs ++ _))
      rw [repliesOf_append']
      exact each_append h4 ⟨⟨s3, rfl⟩, ⟨s4, rfl⟩, trivial⟩
    · intro rest evs' st2 b2 hd
      obtain ⟨ls, e1, e2⟩ := wire_message m.text.flatten rest
      have hdata := Dialogue.command (C := C) (H := ByText V) hL (c := .data) trivial
        (.dataHandled (m := ⟨m.from_, m.rcpts.map (·.1)⟩) (by simpa using w3) h6
        (.inl ⟨ls, e1, by rw [e2]; exact h8⟩)) hd
      have hr := h5 _ _ _ _ hdata
      have := Dialogue.command hL w1 (.mailAccepted h1) hr
      simp only [Item.bytes, dataBytes_wire]
      simpa [OutMail.envelope] using this

theorem does_items (hL : IpLaws L) : ∀ (is : List (Item L)) (s : S) (u : U), (∀ i ∈ is, i.WF) →
    (∀ m, .mail m ∈ is → Accepts C V box m) →
    Does C V box ⟨s, u, none⟩ (is.flatMap Item.bytes) (is.flatMap (Item.replies C)) none (is.flatMap Item.received)
  | [], s, u, _, _ => ⟨[], s, u, by simp, trivial, by intro rest evs' st2 b2 h; simpa using h⟩
  | i :: is, s, u, h, hC => by
    obtain ⟨evs, s1, u1, h1, h2, h3⟩ := does_mail hL i (fun m hm => hC m (by simp [hm])) s u (h i (by simp))
    obtain ⟨evs', s2, u2, h4, h5, h6⟩ := does_items hL is s1 u1 (fun x hx => h x (by simp [hx])) fun m hm => hC m (by simp [hm])
    refine ⟨evs ++ evs', s2, u2, by rw [h4, h1]; simp, ?_, ?_⟩
    · rw [repliesOf_append']; exact each_append h2 h5
    · intro rest evs'' st2 b2 hd
      have := h3 _ _ _ _ (h6 _ _ _ _ hd)
      simpa using this
end

/-! ### C79 What a client sends is what the server's mailbox receives -/

/-- C79. A client writes any number of mails, with `send_to` of the commands and `DataSink`, and other commands in between; the
server accepts and stores these mails; the bytes travel in any packets, with any delays, and the server's writer does not fail.
Then the session ends normally, the mailbox has received exactly these mails, in this order, each with its sender, its
recipients in order, and its text (completed to whole lines), the replies are those due, and no transaction is open. -/
theorem c79_end_to_end (hL : IpLaws L) (C : Config L S U) (V : Verdict L S U) (box : S → List (MailMeta L × Bytes × Bool))
    (hs : SendableConfig C) (hV : ∀ s u m, WholeMessage (C.handleMail s u m) (V s u m)) 
    (script : List (Item L)) (hw : ∀ i ∈ script, i.WF) (hC : ∀ m, .mail m ∈ script → Accepts C V box m) (incoming : List (SrcEv Bytes))
    (hin : evBytes incoming = script.flatMap Item.bytes) (outgoing : BSink) (ho : ∀ o ∈ outgoing.plan, o = .ok) (s : S) (u : U) :
    ∃ n0 w, (∀ n, n0 ≤ n → interact C n incoming outgoing s u = (.ok (), w)) ∧
      box w.cfg = box s ++ script.flatMap Item.received ∧
      Each (C.welcomeBanner :: script.flatMap (Item.replies C)) (repliesOf w.trace) ∧ w.mail = none := by
  obtain ⟨n0, w, h1, h2, h3⟩ := c42_total C V hs hV incoming outgoing ho s u
  obtain ⟨evs, s', u', h4, h5, h6⟩ := does_items (V := V) hL script s u hw hC
  have hd := h6 [] [] _ _ .nil
  obtain ⟨e1, e2⟩ := (h2 (.reply (C.welcomeBanner s) :: evs) ⟨s', u', none⟩).1
    ⟨evs, [], rfl, by rw [hin]; simpa using hd, by rintro ⟨a, b, h⟩; simp [crlf] at h⟩
  refine ⟨n0, w, h1, ?_, ?_, (congrArg SState.mail e2).symm⟩
  · have e3 : s' = w.cfg := congrArg SState.cfg e2
    rw [← e3]; exact h4
  · rw [← e1]; exact ⟨⟨s, rfl⟩, h5⟩

/-- The mailbox of the project's tests. -/
def testBox (b : MailBox L) : List (MailMeta L × Bytes × Bool) := b.map fun x => (⟨x.1, x.2.1⟩, x.2.2, true)

theorem test_accepts (m : OutMail L) (k1 : m.from_ ≠ some (bannedSender L)) (k2 : ∀ t ∈ m.rcpts, t.1.localpartFn ≠ some b!"baz")
    (k3 : ¬ b!"World" <:+: wholeLines m.text.flatten) : Accepts (testConfig L) (testVerdict L) testBox m := by
  refine ⟨fun s => rfl, fun s u => ⟨s, u, ?_, rfl⟩, fun t ht s u e => ⟨s, u, ?_, rfl⟩, fun s u => ⟨s, u, rfl, rfl⟩,
    fun s u => ⟨s ++ [(m.envelope.from_, m.envelope.to, wholeLines m.text.flatten)], (), ?_, ?_⟩⟩
  · have : isBadSender m.from_ = false := by
      rw [Bool.eq_false_iff]; intro h; exact k1 ((isBadSender_iff _).1 h)
    simp [testRequired, Required.toConfig, this]
  · simp [testRequired, Required.toConfig, k2 t ht]
  · have : saysWorld (wholeLines m.text.flatten) = false := by
      rw [Bool.eq_false_iff]; intro h; exact k3 ((saysWorld_iff _).1 h)
    simp [testVerdict, this]
  · simp [testBox]

/-- C79 for the configuration of the project's tests: mails that are not from the banned sender, not to `baz`, and do not say
"World" are all stored. -/
theorem c79_test_config (hL : IpLaws L) (script : List (Item L)) (hw : ∀ i ∈ script, i.WF)
    (hok : ∀ m, .mail m ∈ script → m.from_ ≠ some (bannedSender L) ∧ (∀ t ∈ m.rcpts, t.1.localpartFn ≠ some b!"baz") ∧
      ¬ b!"World" <:+: wholeLines m.text.flatten)
    (incoming : List (SrcEv Bytes)) (hin : evBytes incoming = script.flatMap Item.bytes) (outgoing : BSink)
    (ho : ∀ o ∈ outgoing.plan, o = .ok) (mails : MailBox L) :
    ∃ n0 w, (∀ n, n0 ≤ n → interact (testConfig L) n incoming outgoing mails () = (.ok (), w)) ∧
      w.cfg = mails ++ (script.flatMap Item.received).map (fun x => (x.1.from_, x.1.to, x.2.1)) := by
  have inj : ∀ a b : MailBox L, (a.map fun x => ((⟨x.1, x.2.1⟩ : MailMeta L), x.2.2, true)) =
      b.map (fun x => ((⟨x.1, x.2.1⟩ : MailMeta L), x.2.2, true)) → a = b := by
    intro a b h
    have := congrArg (List.map fun (x : MailMeta L × Bytes × Bool) => (x.1.from_, x.1.to, x.2.1)) h
    simpa [Function.comp_def] using this
  obtain ⟨n0, w, h1, h2, h3⟩ := c79_end_to_end hL (testConfig L) (testVerdict L) testBox test_sendable test_whole script hw
    (fun m hm => test_accepts m (hok m hm).1 (hok m hm).2.1 (hok m hm).2.2) incoming hin outgoing ho mails ()
  refine ⟨n0, w, h1, inj _ _ ?_⟩
  have h2' := h2
  simp only [testBox] at h2'
  rw [h2']
  simp only [List.map_append, List.map_map]
  congr 1
  clear h2 h2' h3 hin hw hok
  induction script with
  | nil => rfl
  | cons i is ih => cases i <;> simp [Item.received, ← ih]

/-- A script with two mails, one in three chunks with lines that begin with dots, and other commands. -/
def exampleScript : List (Item exampleIp) := [.other (.ehlo (.host b!"b")),
  .mail ⟨some Ex.alice, [], [(Ex.bob, []), (Ex.mallory, [])], [b!".a\r", b!"\n", b!"..b\r\n.c"]⟩, .other .rset,
  .mail ⟨none, [], [(Ex.bob, [])], []⟩, .other .quit]

/-- It meets the hypotheses of C79. -/
theorem c79_example : (∀ i ∈ exampleScript, i.WF) ∧
    (∀ m, .mail m ∈ exampleScript → m.from_ ≠ some (bannedSender exampleIp) ∧
      (∀ t ∈ m.rcpts, t.1.localpartFn ≠ some b!"baz") ∧ ¬ b!"World" <:+: wholeLines m.text.flatten) ∧
    exampleScript.flatMap Item.bytes = b!"EHLO b\r\nMAIL FROM:<a@b>\r\nRCPT TO:<c@d>\r\nRCPT TO:<m@bad>\r\nDATA\r\n..a\r\n...b\r\n..c\r\n.\r\nRSET\r\nMAIL FROM:<>\r\nRCPT TO:<c@d>\r\nDATA\r\n.\r\nQUIT\r\n" := by
  refine ⟨?_, ?_, by decide +kernel⟩
  · intro i hi
    simp only [exampleScript, List.mem_cons, List.not_mem_nil, or_false] at hi
    rcases hi with rfl | rfl | rfl | rfl | rfl
    · exact ⟨Ex.wf_host _ 98 [] rfl (by decide +kernel) (by simp), by simp [Implemented]⟩
    · refine ⟨⟨by rintro e he; cases he; exact Ex.wf_alice, Ex.wf_none⟩, ?_, by simp⟩
      intro t ht
      simp only [List.mem_cons, List.not_mem_nil, or_false] at ht
      rcases ht with rfl | rfl
      · exact ⟨Ex.wf_bob, Ex.wf_none⟩
      · exact ⟨Ex.wf_mallory, Ex.wf_none⟩
    · exact ⟨trivial, by simp [Implemented]⟩
    · refine ⟨⟨(fun e he => by cases he), Ex.wf_none⟩, ?_, by simp⟩
      intro t ht
      simp only [List.mem_cons, List.not_mem_nil, or_false] at ht
      subst ht
      exact ⟨Ex.wf_bob, Ex.wf_none⟩
    · exact ⟨trivial, by simp [Implemented]⟩
  · intro m hm
    simp only [exampleScript, List.mem_cons, List.not_mem_nil, or_false, reduceCtorEq, false_or, Item.mail.injEq] at hm
    rcases hm with rfl | rfl
    · refine ⟨by simp [bannedSender], by decide +kernel, fun h => ?_⟩
      exact absurd ((saysWorld_iff _).2 h) (by decide +kernel)
    · refine ⟨by simp [bannedSender], by decide +kernel, fun h => ?_⟩
      exact absurd ((saysWorld_iff _).2 h) (by decide +kernel)

end Verif
