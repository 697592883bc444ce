import Verif.Spec.Relay
import Verif.Props.EndToEnd
/-
C98: relaying.
-/
namespace Verif
open Spec Server
variable {L : IpLib} {S U : Type}

private theorem decoded_whole (ls : List Bytes) : wholeLines (decodedLines ls) = decodedLines ls := by
  unfold wholeLines
  rw [if_pos]
  rcases List.eq_nil_or_concat ls with rfl | ⟨l, a, rfl⟩
  · left; rfl
  · right; exact ⟨decodedLines l ++ dropDot a, by simp [decodedLines]⟩

/-- The invariant of a session of a spooling server. -/
private structure Good (box : S → List (Stored L)) (s0 : S) (st : SState L S U) : Prop where
  box : ∃ new, box st.cfg = box s0 ++ new ∧ ∀ x ∈ new, x.2.2 = true → Forwardable x
  mail : ∀ m, st.mail = some m → WFEnvelope m

private theorem exchange_good (hL : IpLaws L) {C : Config L S U} {V : Verdict L S U} {box : S → List (Stored L)}
    (hf : WFFilters C) (hb : Spools C V box) {s0 : S} {line : Bytes} {c : Option (Command L)} (hc : commandOn line = c)
    {st st' : SState L S U} {b b' : Bytes} {evs : List (Ev L)} (h : Exchange C (ByText V) c st b evs st' b')
    (hg : Good box s0 st) : Good box s0 st' := by
  have hwf : ∀ c', c = some c' → WFCommand c' := by
    rintro c' rfl
    unfold commandOn at hc
    cases hp : (Command.parse line : Except _ (Command L)) with
    | error e => rw [hp] at hc; simp [Except.toOption] at hc
    | ok x =>
      rw [hp] at hc
      simp [Except.toOption] at hc
      subst hc
      exact c28_wellformed hL _ _ hp
  cases h with
  | unrecognized => exact hg
  | unimplemented => exact hg
  | mailAgain => exact hg
  | rcptEarly => exact hg
  | dataEarly => exact hg
  | dataNoRcpt => exact hg
  | @mailAccepted s u b f p f' s' u' h1 =>
    have h2 := hf.from_ (C.newMail s) u f (hwf _ rfl).1
    have h3 := hb.from_ (C.newMail s) u f
    rw [h1] at h2 h3
    refine ⟨by rw [h3, hb.newMail]; exact hg.box, ?_⟩
    rintro m ⟨⟩
    exact ⟨h2, by simp⟩
  | @mailRefused s u b f p f' r s' u' h1 =>
    have h3 := hb.from_ (C.newMail s) u f
    rw [h1] at h3
    exact ⟨by rw [h3, hb.newMail]; exact hg.box, by simp⟩
  | @rcptAccepted s u m b t p t' m' s' u' h1 =>
    have h2 := hf.to s u t m (hwf _ rfl).1 (hg.mail _ rfl)
    have h3 := hb.to s u t m
    rw [h1] at h2 h3
    refine ⟨by rw [h3]; exact hg.box, ?_⟩
    rintro m ⟨⟩
    refine ⟨h2.2.1, fun x hx => ?_⟩
    simp only [List.mem_append, List.mem_singleton] at hx
    rcases hx with hx | rfl
    · exact h2.2.2 x hx
    · exact h2.1
  | @rcptRefused s u m b t p t' m' r s' u' h1 =>
    have h2 := hf.to s u t m (hwf _ rfl).1 (hg.mail _ rfl)
    have h3 := hb.to s u t m
    rw [h1] at h2 h3
    refine ⟨by rw [h3]; exact hg.box, ?_⟩
    rintro m ⟨⟩
    exact h2.2
  | @dataRefused s u m b m' r s' u' h0 h1 =>
    have h2 := hf.data s u m (hg.mail _ rfl) h0
    have h3 := hb.data s u m
    rw [h1] at h2 h3
    refine ⟨by rw [h3]; exact hg.box, ?_⟩
    rintro m ⟨⟩
    exact h2.1
  | @dataHandled s u m b m' s' u' d s'' u'' b' h0 h1 h4 =>
    have h2 := hf.data s u m (hg.mail _ rfl) h0
    have h3 := hb.data s u m
    rw [h1] at h2 h3
    obtain ⟨new, e1, e2⟩ := hg.box
    refine ⟨?_, by simp⟩
    rcases h4 with ⟨ls, _, h5⟩ | ⟨ls, part, _, _, h5⟩
    · have h6 := hb.handle s' u' m' (decodedLines ls) true
      rw [h5] at h6
      rcases h6 with h6 | h6
      · exact ⟨new, by rw [h6, h3]; exact e1, e2⟩
      · refine ⟨new ++ [(m', decodedLines ls, true)], by rw [h6, h3]; simp only [e1, List.append_assoc], ?_⟩
        intro x hx hx'
        simp only [List.mem_append, List.mem_singleton] at hx
        rcases hx with hx | rfl
        · exact e2 x hx hx'
        · exact ⟨h2.1, h2.2, decoded_whole ls, rfl⟩
    · have h6 := hb.handle s' u' m' (decodedLines ls ++ decodedPart part) false
      rw [h5] at h6
      rcases h6 with h6 | h6
      · exact ⟨new, by rw [h6, h3]; exact e1, e2⟩
      · refine ⟨new ++ [(m', decodedLines ls ++ decodedPart part, false)], by rw [h6, h3]; simp only [e1, List.append_assoc], ?_⟩
        intro x hx hx'
        simp only [List.mem_append, List.mem_singleton] at hx
        rcases hx with hx | rfl
        · exact e2 x hx hx'
        · cases hx'

private theorem dialogue_good (hL : IpLaws L) {C : Config L S U} {V : Verdict L S U} {box : S → List (Stored L)}
    (hf : WFFilters C) (hb : Spools C V box) {s0 : S} {st st' : SState L S U} {b b' : Bytes} {evs : List (Ev L)}
    (h : Dialogue C (ByText V) st b evs st' b') (hg : Good box s0 st) : Good box s0 st' := by
  induction h with
  | nil => exact hg
  | cons _ he _ ih => exact ih (exchange_good hL hf hb rfl he hg)

/-- C98. Whatever bytes a server received, from whatever client: every complete mail it stored can be passed on. -/
theorem c98_forwardable (hL : IpLaws L) (C : Config L S U) (V : Verdict L S U) (box : S → List (Stored L))
    (hV : ∀ s u m, WholeMessage (C.handleMail s u m) (V s u m)) (hf : WFFilters C) (hb : Spools C V box)
    (n : Nat) (incoming : List (SrcEv Bytes)) (outgoing : BSink) (s : S) (u : U) (w : World L S U)
    (h : interact C n incoming outgoing s u = (.ok (), w)) :
    ∃ new, box w.cfg = box s ++ new ∧ ∀ x ∈ new, x.2.2 = true → Forwardable x := by
  obtain ⟨evs, left, _, hd, _⟩ := c42_reference C V hV n incoming outgoing s u w h
  exact (dialogue_good hL hf hb hd ⟨⟨[], by simp, by simp⟩, by simp⟩).box

private theorem one_hop (hL : IpLaws L) {C : Config L S U} {V : Verdict L S U} {box : S → List (Stored L)}
    (hs : SendableConfig C) (hV : ∀ s u m, WholeMessage (C.handleMail s u m) (V s u m)) {script : List (Item L)}
    (hC : ∀ m, .mail m ∈ script → Accepts C V box m) (hp : ∀ i ∈ script, i.Polite)
    (hf : ∀ x ∈ script.flatMap Item.carried, Forwardable x) {incoming : List (SrcEv Bytes)}
    (hin : evBytes incoming = script.flatMap Item.bytes) (outgoing : BSink) (s : S) (u : U) :
    (∀ n w, interact C n incoming outgoing s u = (.ok (), w) → box w.cfg = box s ++ script.flatMap Item.carried) ∧
    ((∀ o ∈ outgoing.plan, o = .ok) → ∃ n w, interact C n incoming outgoing s u = (.ok (), w)) := by
  have hw : ∀ i ∈ script, i.WF := by
    intro i hi
    have h1 := hp i hi
    cases i with
    | other c => exact h1
    | mail m =>
      have h2 := hf (m.envelope, m.text.flatten, true) (List.mem_flatMap.2 ⟨_, hi, by simp [Item.carried]⟩)
      obtain ⟨⟨h3, h4⟩, h5, _⟩ := h2
      refine ⟨⟨h3, h1.1⟩, fun t ht => ⟨h4 t.1 (List.mem_map.2 ⟨t, ht, rfl⟩), h1.2 t ht⟩, ?_⟩
      intro he
      apply h5
      simp [OutMail.envelope, he]
  have hr : script.flatMap Item.received = script.flatMap Item.carried := by
    clear hin hC hp hw
    induction script with
    | nil => rfl
    | cons i is ih =>
      rw [List.flatMap_cons, List.flatMap_cons, ih fun x hx => hf x (by simp [hx])]
      congr 1
      cases i with
      | other c => rfl
      | mail m =>
        have := (hf (m.envelope, m.text.flatten, true) (by simp [Item.carried])).2.2.1
        simp only at this
        simp [Item.received, Item.carried, OutMail.envelope, this]
  refine ⟨fun n w h => ?_, fun ho => ?_⟩
  · obtain ⟨n0, w0, h1, h2, _⟩ := c79_end_to_end hL C V box hs hV script hw hC incoming hin ⟨[], []⟩ (by simp) s u
    have e := (c42_reference_unique C V s u _ _ _ _ _ (c42_reference C V hV n incoming outgoing s u w h)
      (c42_reference C V hV n0 incoming ⟨[], []⟩ s u w0 (h1 n0 (Nat.le_refl _)))).2
    have e' : w.cfg = w0.cfg := congrArg SState.cfg e
    rw [e', h2, hr]
  · obtain ⟨n0, w0, h1, _⟩ := c79_end_to_end hL C V box hs hV script hw hC incoming hin outgoing ho s u
    exact ⟨n0, w0, h1 n0 (Nat.le_refl _)⟩

/-- C98. Passing mails on, through any number of servers, changes neither their envelopes nor their texts, loses none, and
adds none. -/
theorem c98_relay (hL : IpLaws L) {before after : List (Stored L)} (hf : ∀ x ∈ before, Forwardable x)
    (h : Relayed before after) : after = before := by
  induction h with
  | here => rfl
  | @hop S U ms got after C V box script incoming outgoing s u n w h1 h2 h3 h4 h5 h6 h7 h8 _ ih =>
    subst h5
    have h9 := (one_hop hL h1 h2 h3 h4 hf h6 outgoing s u).1 n w h7
    rw [h8] at h9
    have h10 := List.append_cancel_left h9
    subst h10
    exact ih hf

/-- C98. And no server on the way can get stuck: where the mails are accepted and the replies can be written, the session
ends. -/
theorem c98_progress (hL : IpLaws L) {C : Config L S U} {V : Verdict L S U} {box : S → List (Stored L)}
    (hs : SendableConfig C) (hV : ∀ s u m, WholeMessage (C.handleMail s u m) (V s u m)) {script : List (Item L)}
    (hC : ∀ m, .mail m ∈ script → Accepts C V box m) (hp : ∀ i ∈ script, i.Polite)
    (hf : ∀ x ∈ script.flatMap Item.carried, Forwardable x) {incoming : List (SrcEv Bytes)}
    (hin : evBytes incoming = script.flatMap Item.bytes) (outgoing : BSink) (ho : ∀ o ∈ outgoing.plan, o = .ok) (s : S) (u : U) :
    ∃ n w, interact C n incoming outgoing s u = (.ok (), w) ∧ box w.cfg = box s ++ script.flatMap Item.carried := by
  obtain ⟨h1, h2⟩ := one_hop hL hs hV hC hp hf hin outgoing s u
  obtain ⟨n, w, h⟩ := h2 ho
  exact ⟨n, w, h, h1 n w h⟩

/-- C98, both together: what a first server stored of arbitrary input, and the relays passed on, is what the last one gets. -/
theorem c98_from_any_client (hL : IpLaws L) (C : Config L S U) (V : Verdict L S U) (box : S → List (Stored L))
    (hV : ∀ s u m, WholeMessage (C.handleMail s u m) (V s u m)) (hf : WFFilters C) (hb : Spools C V box)
    (n : Nat) (incoming : List (SrcEv Bytes)) (outgoing : BSink) (s : S) (u : U) (w : World L S U)
    (h : interact C n incoming outgoing s u = (.ok (), w)) (new after : List (Stored L)) (hn : box w.cfg = box s ++ new)
    (hr : Relayed (new.filter (·.2.2)) after) : after = new.filter (·.2.2) := by
  obtain ⟨new', h1, h2⟩ := c98_forwardable hL C V box hV hf hb n incoming outgoing s u w h
  rw [hn] at h1
  obtain rfl := List.append_cancel_left h1
  exact c98_relay hL (fun x hx => by rw [List.mem_filter] at hx; exact h2 x hx.1 hx.2) hr

/-- The configuration of the project's tests meets the hypotheses on the first server. -/
theorem c98_example_first : WFFilters (testConfig L) ∧ Spools (testConfig L) (testVerdict L) testBox := by
  refine ⟨⟨fun s u f hf a ha => hf a ha, fun s u t m ht hm => ⟨ht, hm⟩, fun s u m hm h => ⟨hm, h⟩⟩,
    ⟨fun s => rfl, fun s u f => rfl, fun s u t m => rfl, fun s u m => rfl, fun s u m text ok => ?_⟩⟩
  unfold testVerdict
  cases ok with
  | false => exact .inl rfl
  | true =>
    by_cases h : saysWorld text = true
    · simp [h]
    · simp [h, testBox]

/-- Two mails, one in three chunks with lines that begin with dots, and other commands. -/
def relayScript : List (Item exampleIp) := [.other (.ehlo (.host b!"b")),
  .mail ⟨some Ex.alice, [], [(Ex.bob, []), (Ex.mallory, [])], [b!".a\r", b!"\n", b!"..b\r\n.\r\n"]⟩,
  .mail ⟨none, [], [(Ex.bob, [])], []⟩, .other .quit]

/-- C98, a case: these mails, one of them holding a line that is a lone dot, really pass through two servers with the
configuration of the project's tests. -/
theorem c98_example : (∀ x ∈ relayScript.flatMap Item.carried, Forwardable x) ∧
    (relayScript.flatMap Item.carried).map (·.2.1) = [b!".a\r\n..b\r\n.\r\n", []] ∧
    (∃ n w, interact (testConfig exampleIp) n [.pkt (relayScript.flatMap Item.bytes)] ⟨[], []⟩ [] () = (.ok (), w) ∧
      testBox w.cfg = relayScript.flatMap Item.carried) ∧
    Relayed (relayScript.flatMap Item.carried) (relayScript.flatMap Item.carried) := by
  have hf : ∀ x ∈ relayScript.flatMap Item.carried, Forwardable x := by
    intro x hx
    simp [relayScript, Item.carried, OutMail.envelope] at hx
    rcases hx with rfl | rfl
    · refine ⟨⟨?_, ?_⟩, by simp, by decide +kernel, rfl⟩
      · rintro a ⟨⟩; exact Ex.wf_alice
      · intro t ht
        simp at ht
        rcases ht with rfl | rfl
        · exact Ex.wf_bob
        · exact Ex.wf_mallory
    · refine ⟨⟨by simp, ?_⟩, by simp, by decide +kernel, rfl⟩
      intro t ht
      simp at ht
      subst ht
      exact Ex.wf_bob
  have hp : ∀ i ∈ relayScript, i.Polite := by
    intro i hi
    simp only [relayScript, List.mem_cons, List.not_mem_nil, or_false] at hi
    rcases hi with rfl | rfl | rfl | rfl
    · exact ⟨Ex.wf_host _ 98 [] rfl (by decide +kernel) (by simp), by simp [Implemented]⟩
    · refine ⟨Ex.wf_none, fun t ht => ?_⟩
      simp at ht
      rcases ht with rfl | rfl <;> exact Ex.wf_none
    · refine ⟨Ex.wf_none, fun t ht => ?_⟩
      simp at ht
      subst ht
      exact Ex.wf_none
    · exact ⟨trivial, by simp [Implemented]⟩
  have ha : ∀ m, .mail m ∈ relayScript → Accepts (testConfig exampleIp) (testVerdict exampleIp) testBox m := by
    intro m hm
    simp only [relayScript, List.mem_cons, List.not_mem_nil, or_false, reduceCtorEq, false_or, Item.mail.injEq] at hm
    rcases hm with rfl | rfl
    · exact test_accepts _ (by simp [bannedSender]) (by decide +kernel)
        fun h => absurd ((saysWorld_iff _).2 h) (by decide +kernel)
    · exact test_accepts _ (by simp [bannedSender]) (by decide +kernel)
        fun h => absurd ((saysWorld_iff _).2 h) (by decide +kernel)
  have hin : evBytes [.pkt (relayScript.flatMap Item.bytes)] = relayScript.flatMap Item.bytes := by simp [evBytes]
  obtain ⟨n, w, h1, h2⟩ := c98_progress exampleIp_laws test_sendable test_whole ha hp hf hin ⟨[], []⟩ (by simp) [] ()
  exact ⟨hf, by decide +kernel, ⟨n, w, h1, h2⟩, .hop test_sendable test_whole ha hp rfl hin h1 h2
    (.hop test_sendable test_whole ha hp rfl hin h1 h2 .here)⟩

end Verif
