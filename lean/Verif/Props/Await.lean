import Verif.Proofs.Await
import Verif.Props.Relay
import Verif.Props.SessionExamples
/-
C103: what a session has done at every `.await`, and what its mailbox holds then.
-/
namespace Verif
open Spec Server Verif.Task Ex
variable {L : IpLib} {S U : Type}

/-- C103. At every `.await` the session is where the specification says a session over these bytes can be: some lines have been
treated as in the reference dialogue, and at most one more is under way; what has happened, and the configuration and connection
data as the callbacks have left them, are those of the reference at that point. -/
theorem c103_every_await (C : Config L S U) (V : Verdict L S U) (hV : ∀ s u m, WholeMessage (C.handleMail s u m) (V s u m))
    (incoming : List (SrcEv Bytes)) (outgoing : BSink) (s : S) (u : U) (n : Nat) :
    Moment C (ByText V) s u (evBytes incoming) (after C incoming outgoing s u n).2.trace (after C incoming outgoing s u n).2.cfg
      (after C incoming outgoing s u n).2.conn :=
  (at_after (fun _ _ _ _ _ _ _ _ _ h => handles_byText hV h) incoming outgoing s u n).moment

/-! ### The mailbox -/

theorem accepted_append {a b : List (Ev L)} (hb : ∀ d, b.head? ≠ some (.handled d)) :
    acceptedMails (a ++ b) = acceptedMails a ++ acceptedMails b := by
  fun_induction acceptedMails a with
  | case1 => rfl
  | case2 m evs ih => simp [acceptedMails, ih]
  | case3 e evs h ih =>
    rw [List.cons_append, acceptedMails, ih]
    intro m evs' he hb'
    cases evs with
    | nil => rw [List.nil_append] at hb'; rw [hb'] at hb; exact hb _ rfl
    | cons x xs => simp only [List.cons_append, List.cons.injEq] at hb'; exact h m xs he (by rw [hb'.1])

theorem acknowledged_append {a b : List (Ev L)} (hb : ∀ d, b.head? ≠ some (.handled d)) (hr : ∀ r, b.head? ≠ some (.reply r)) :
    acknowledgedMails (a ++ b) = acknowledgedMails a ++ acknowledgedMails b := by
  fun_induction acknowledgedMails a with
  | case1 => rfl
  | case2 m r evs ih => simp [acknowledgedMails, ih]
  | case3 e evs h ih =>
    rw [List.cons_append, acknowledgedMails, ih]
    intro m r evs' he hb'
    match evs with
    | [] => rw [List.nil_append] at hb'; rw [hb'] at hb; exact hb _ rfl
    | [x] =>
      simp only [List.cons_append, List.nil_append, List.cons.injEq] at hb'
      rw [hb'.2] at hr; exact hr _ rfl
    | x :: y :: xs =>
      simp only [List.cons_append, List.cons.injEq] at hb'
      exact h m r xs he (by rw [hb'.1, hb'.2.1])

private theorem sent_nil {xs : List (Stored L)} (h : Sent L [] xs) : xs = [] := by
  have key : ∀ (before line b : Bytes), [] = before ++ line ++ b → (commandOn line : Option (Command L)) ≠ some .data := by
    intro before line b h
    have : line = [] := by
      have := congrArg List.length h
      simp at this
      exact List.eq_nil_of_length_eq_zero (by omega)
    subst this
    have e : (commandOn [] : Option (Command L)) = none := by rfl
    rw [e]; simp
  cases h with
  | nil => rfl
  | complete h1 _ h2 _ _ => exact absurd h2 (key _ _ _ h1)
  | unfinished h1 _ h2 _ => exact absurd h2 (key _ _ _ h1)

private theorem sent_before {raw : Bytes} {xs : List (Stored L)} (h : Sent L raw xs) (p : Bytes) (hp : crlf <:+ p) :
    Sent L (p ++ raw) xs := by
  have fin : ∀ before : Bytes, before = [] ∨ crlf <:+ before → p ++ before = [] ∨ crlf <:+ p ++ before := by
    rintro before (rfl | h)
    · right; rwa [List.append_nil]
    · exact .inr (h.trans (List.suffix_append p before))
  cases h with
  | nil => exact .nil
  | @complete _ before line b _ _ _ _ h1 h0 h2 h3 h4 =>
    exact .complete (before := p ++ before) (line := line) (b := b) (by rw [h1]; simp only [List.append_assoc]) (fin _ h0) h2 h3 h4
  | @unfinished _ before line b _ _ _ h1 h0 h2 h3 =>
    exact .unfinished (before := p ++ before) (line := line) (b := b) (by rw [h1]; simp only [List.append_assoc]) (fin _ h0) h2 h3

/-- What an exchange adds to the mailbox. -/
private theorem exchange_keeps {C : Config L S U} {V : Verdict L S U} {box : S → List (Stored L)} (hb : Keeps C V box)
    {line : Bytes} (hl : crlf <:+ line) {st st' : SState L S U} {b b' : Bytes} {evs : List (Ev L)}
    (h : Exchange C (ByText V) (commandOn line) st b evs st' b') :
    ∃ new, box st'.cfg = box st.cfg ++ new ∧ acceptedMails evs = new.map (·.1) ∧ acknowledgedMails evs = new.map (·.1) ∧
      (∀ xs, Sent L b' xs → Sent L (line ++ b) (new ++ xs)) ∧ (acceptedMails evs.dropLast = new.map (·.1)) ∧
      acknowledgedMails evs.dropLast = [] ∧
      (new = [] ∨ ∃ x evs', new = [x] ∧ evs.dropLast = evs' ++ [.handleMail x.1, .handled .accept]) := by
  generalize hc : (commandOn line : Option (Command L)) = c at h
  cases h with
  | unrecognized | unimplemented _ | mailAgain | rcptEarly | dataEarly | dataNoRcpt =>
    exact ⟨[], by simp, rfl, rfl, fun xs h => sent_before h line hl, rfl, rfl, .inl rfl⟩
  | @mailAccepted s u b f p f' s' u' h =>
    have := hb.from_ (C.newMail s) u f
    rw [h, hb.newMail] at this
    exact ⟨[], by simpa using this, rfl, rfl, fun xs h => sent_before h line hl, rfl, rfl, .inl rfl⟩
  | @mailRefused s u b f p f' r s' u' h =>
    have := hb.from_ (C.newMail s) u f
    rw [h, hb.newMail] at this
    exact ⟨[], by simpa using this, rfl, rfl, fun xs h => sent_before h line hl, rfl, rfl, .inl rfl⟩
  | @rcptAccepted s u m b t p t' m' s' u' h =>
    have := hb.to s u t m
    rw [h] at this
    exact ⟨[], by simpa using this, rfl, rfl, fun xs h => sent_before h line hl, rfl, rfl, .inl rfl⟩
  | @rcptRefused s u m b t p t' m' r s' u' h =>
    have := hb.to s u t m
    rw [h] at this
    exact ⟨[], by simpa using this, rfl, rfl, fun xs h => sent_before h line hl, rfl, rfl, .inl rfl⟩
  | @dataRefused s u m b m' r s' u' h0 h =>
    have := hb.data s u m
    rw [h] at this
    exact ⟨[], by simpa using this, rfl, rfl, fun xs h => sent_before h line hl, rfl, rfl, .inl rfl⟩
  | @dataHandled s u m b m' s' u' d s'' u'' b' h0 h1 h4 =>
    have h3 := hb.data s u m
    rw [h1] at h3
    simp only at h3 ⊢
    cases d with
    | reject r =>
      rcases h4 with ⟨ls, h5, h6⟩ | ⟨ls, part, h5, rfl, h6⟩
      · refine ⟨[], by simpa [h3] using hb.reject _ _ _ _ _ _ _ _ h6, rfl, rfl, ?_, rfl, rfl, .inl rfl⟩
        intro xs h
        rw [h5.1, ← List.append_assoc]
        refine sent_before h _ ⟨line ++ linesBytes ls ++ [46], ?_⟩
        simp [crlf]
      · refine ⟨[], by simpa [h3] using hb.reject _ _ _ _ _ _ _ _ h6, rfl, rfl, ?_, rfl, rfl, .inl rfl⟩
        intro xs h
        rw [sent_nil h]
        exact .nil
    | accept =>
      rcases h4 with ⟨ls, h5, h6⟩ | ⟨ls, part, h5, rfl, h6⟩
      · refine ⟨[(m', decodedLines ls, true)], by simpa [h3] using hb.accept _ _ _ _ _ _ _ h6, rfl, rfl, ?_, rfl, rfl,
          .inr ⟨_, [_, _], rfl, rfl⟩⟩
        intro xs h
        exact .complete (before := []) (line := line) (b := b) rfl (.inl rfl) hc h5 h
      · refine ⟨[(m', decodedLines ls ++ decodedPart part, false)], by simpa [h3] using hb.accept _ _ _ _ _ _ _ h6, rfl, rfl, ?_,
          rfl, rfl, .inr ⟨_, [_, _], rfl, rfl⟩⟩
        intro xs h
        rw [sent_nil h]
        exact .unfinished (before := []) (line := line) (b := b) rfl (.inl rfl) hc h5

private theorem dialogue_head {C : Config L S U} {H : Spec.Handling L S U} {st st' : SState L S U} {b b' : Bytes} {evs : List (Ev L)}
    (h : Dialogue C H st b evs st' b') : (∀ d, evs.head? ≠ some (.handled d)) ∧ ∀ r, evs.head? ≠ some (.reply r) := by
  cases h <;> simp

theorem dialogue_keeps {C : Config L S U} {V : Verdict L S U} {box : S → List (Stored L)} (hb : Keeps C V box)
    {st st' : SState L S U} {b b' : Bytes} {evs : List (Ev L)} (h : Dialogue C (ByText V) st b evs st' b') :
    ∃ new, box st'.cfg = box st.cfg ++ new ∧ acceptedMails evs = new.map (·.1) ∧ acknowledgedMails evs = new.map (·.1) ∧
      ∀ xs, Sent L b' xs → Sent L b (new ++ xs) := by
  induction h with
  | nil => exact ⟨[], by simp, rfl, rfl, fun _ h => h⟩
  | @cons st l t evs st1 b1 evs' st2 b2 h1 h2 h3 ih =>
    obtain ⟨n1, a1, a2, a3, a4, _⟩ := exchange_keeps hb (List.suffix_append l crlf) h2
    obtain ⟨n2, c1, c2, c3, c4⟩ := ih
    obtain ⟨d1, d2⟩ := dialogue_head h3
    refine ⟨n1 ++ n2, by rw [c1, a1, List.append_assoc], ?_, ?_, ?_⟩
    · rw [List.cons_append, acceptedMails, accepted_append d1, a2, c2, List.map_append]
      intro m evs he; cases he
    · rw [List.cons_append, acknowledgedMails, acknowledged_append d1 d2, a3, c3, List.map_append]
      intro m r evs he; cases he
    · intro xs h
      rw [List.append_assoc n1]
      exact a4 _ (c4 _ h)

private theorem underway_keeps {C : Config L S U} {V : Verdict L S U} {box : S → List (Stored L)} (hb : Keeps C V box)
    {line : Bytes} (hl : crlf <:+ line) {st : SState L S U} {b : Bytes} {cur : List (Ev L)} {s' : S} {u' : U}
    (h : Underway C (ByText V) (commandOn line) st b cur s' u') :
    ∃ new, box s' = box st.cfg ++ new ∧ acceptedMails cur = new.map (·.1) ∧ acknowledgedMails cur = [] ∧ Sent L (line ++ b) new ∧
      (new = [] ∨ ∃ x evs', new = [x] ∧ cur = evs' ++ [.handleMail x.1, .handled .accept]) := by
  generalize hc : (commandOn line : Option (Command L)) = c at h
  cases h with
  | read => exact ⟨[], by simp, rfl, rfl, .nil, .inl rfl⟩
  | newMail => exact ⟨[], by simp [hb.newMail], rfl, rfl, .nil, .inl rfl⟩
  | @data s u m b m' s' u' h0 h1 =>
    have h3 := hb.data s u m
    rw [h1] at h3
    exact ⟨[], by simpa using h3, rfl, rfl, .nil, .inl rfl⟩
  | @handling s u m b m' s' u' h0 h1 =>
    have h3 := hb.data s u m
    rw [h1] at h3
    exact ⟨[], by simpa using h3, rfl, rfl, .nil, .inl rfl⟩
  | answering h =>
    rw [← hc] at h
    obtain ⟨new, a1, _, _, a4, a5, a6, a7⟩ := exchange_keeps hb hl h
    rw [List.dropLast_concat] at a5 a6 a7
    refine ⟨new, a1, a5, a6, ?_, a7⟩
    have := a4 [] .nil
    rwa [List.append_nil] at this

/-- C103. At every `.await`, and whatever the writer does: the mailbox holds what it held and the mails that were accepted, in
order, each with the envelope its handler was given and the text as it was received. Every mail whose acceptance the client was
told is there. At most one is there of which the client was not told, and then its acceptance is the last thing that happened,
but for the error of a writer that would not take the reply. -/
theorem c103_mailbox (C : Config L S U) (V : Verdict L S U) (box : S → List (Stored L))
    (hV : ∀ s u m, WholeMessage (C.handleMail s u m) (V s u m)) (hb : Keeps C V box)
    (incoming : List (SrcEv Bytes)) (outgoing : BSink) (s : S) (u : U) (n : Nat) :
    ∃ stored, box (after C incoming outgoing s u n).2.cfg = box s ++ stored ∧
      stored.map (·.1) = acceptedMails (after C incoming outgoing s u n).2.trace ∧ Sent L (evBytes incoming) stored ∧
      (stored.map (·.1) = acknowledgedMails (after C incoming outgoing s u n).2.trace ∨
        ∃ m evs e, stored.map (·.1) = acknowledgedMails (after C incoming outgoing s u n).2.trace ++ [m] ∧
          (after C incoming outgoing s u n).2.trace = evs ++ [.handleMail m, .handled .accept] ++ e ∧
          (e = [] ∨ e = [.writeError])) := by
  have h := c103_every_await C V hV incoming outgoing s u n
  generalize (after C incoming outgoing s u n).2.trace = tr at h ⊢
  generalize (after C incoming outgoing s u n).2.cfg = s' at h ⊢
  generalize (after C incoming outgoing s u n).2.conn = u' at h
  cases h with
  | greeting h =>
    refine ⟨[], by simp, ?_, .nil, .inl ?_⟩ <;> rcases h with rfl | rfl <;> rfl
  | between h =>
    obtain ⟨new, a1, a2, a3, a4⟩ := dialogue_keeps hb h
    have := a4 [] .nil
    rw [List.append_nil] at this
    refine ⟨new, a1, ?_, this, .inl ?_⟩
    · rw [acceptedMails, a2]
      intro m evs he; cases he
    · rw [acknowledgedMails, a3]
      intro m r evs he; cases he
  | @within evs st l b cur s' u' e h1 h2 h3 h4 =>
    obtain ⟨n1, a1, a2, a3, a4⟩ := dialogue_keeps hb h1
    obtain ⟨n2, c1, c2, c3, c4, c5⟩ := underway_keeps hb (List.suffix_append l crlf) h3
    have f1 : acceptedMails (Ev.reply (C.welcomeBanner s) :: evs ++ .line (l ++ crlf) :: cur ++ e) = (n1 ++ n2).map (·.1) := by
      rw [List.append_assoc, List.cons_append, acceptedMails, accepted_append (by simp), a2, List.cons_append, acceptedMails,
        accepted_append (by rcases h4 with rfl | rfl <;> simp), c2]
      · rcases h4 with rfl | rfl <;> simp [acceptedMails]
      · intro m evs he; cases he
      · intro m evs he; cases he
    have f2 : acknowledgedMails (Ev.reply (C.welcomeBanner s) :: evs ++ .line (l ++ crlf) :: cur ++ e) = n1.map (·.1) := by
      rw [List.append_assoc, List.cons_append, acknowledgedMails, acknowledged_append (by simp) (by simp), a3, List.cons_append,
        acknowledgedMails, acknowledged_append (by rcases h4 with rfl | rfl <;> simp) (by rcases h4 with rfl | rfl <;> simp), c3]
      · rcases h4 with rfl | rfl <;> simp [acknowledgedMails]
      · intro m r evs he; cases he
      · intro m r evs he; cases he
    refine ⟨n1 ++ n2, by rw [c1, a1, List.append_assoc], f1.symm, a4 _ c4, ?_⟩
    rw [f2]
    rcases c5 with rfl | ⟨x, evs', rfl, rfl⟩
    · left; simp
    · right
      refine ⟨x.1, Ev.reply (C.welcomeBanner s) :: evs ++ .line (l ++ crlf) :: evs', e, by simp, by simp, h4⟩

private theorem dispatch_cfg (C : Config L S U) (w : World L S U) (l : Bytes) : (dispatch C w l).2.cfg = w.cfg := by
  unfold dispatch
  split
  · split <;> rfl
  · split <;> rfl
  · split
    · split <;> rfl
    · rfl
  · rfl
  · rfl

private theorem resume_cfg (C : Config L S U) (w : World L S U) (a : After L) : (resume C w a).2.cfg = w.cfg := by
  cases a <;> rfl

/-- One answer adds one mail to the mailbox or none. -/
theorem step_grows {C : Config L S U} {V : Verdict L S U} {box : S → List (Stored L)}
    (hV : ∀ s u m, WholeMessage (C.handleMail s u m) (V s u m)) (hb : Keeps C V box) {s0 : S} {u0 : U} {input : Bytes}
    (x : State L S U) (h : At C (ByText V) s0 u0 input x) :
    box (step C x).2.cfg = box x.2.cfg ∨ ∃ y, box (step C x).2.cfg = box x.2.cfg ++ [y] := by
  obtain ⟨pc, w⟩ := x
  cases pc with
  | over r => exact .inl rfl
  | read buf =>
    left
    simp only [step]
    split
    · rfl
    · split
      · split
        · rw [dispatch_cfg]
        · rfl
      · rfl
    · split <;> rfl
  | newMail f => exact .inl (hb.newMail _)
  | filterFrom f =>
    left
    have := hb.from_ w.cfg w.conn f
    simp only [step]
    split <;> (rename_i hf; rw [hf] at this; exact this)
  | filterTo a m =>
    left
    have := hb.to w.cfg w.conn a m
    simp only [step]
    split <;> (rename_i hf; rw [hf] at this; exact this)
  | filterData m =>
    left
    have := hb.data w.cfg w.conn m
    simp only [step]
    split <;> (rename_i hf; rw [hf] at this; exact this)
  | send r left a =>
    left
    cases left with
    | nil =>
      simp only [step]
      rcases flush_cases w with ⟨wr, hf, ho⟩ | ⟨wr, hf, ho⟩ <;> simp only [hf]
      rw [resume_cfg]
    | cons t ts =>
      simp only [step]
      cases hb : ReplyLine.build r.1 (if ts.isEmpty then .yes else .no) t with
      | error e => rfl
      | ok ln => rcases writeLine_cases ln w with ⟨wr, hf, ho⟩ | ⟨wr, hf, ho⟩ <;> simp only [hf]
  | handle act hh d =>
    rcases h with ⟨st, l, t, cur, h1, s, u, m, m', rd, k1, rfl, k3, k4, k5, rfl, rfl, k8, k9⟩ | ⟨left, h, _⟩
    · simp only [step]
      split
      · exact .inl rfl
      · split <;> exact .inl rfl
      · rename_i dec s' u' ha
        split
        · rename_i hd
          have hrun : runHandler act (hh.length + 1) [] (DStream.new rd) = .returned dec s' u' d := by
            rw [k9.run 1]; simp [runHandler, ha]
          have hh' := handles_byText hV ⟨rd, d, rfl, by rw [← k8]; exact hrun, hd, rfl⟩
          have : ∀ text ok, V w.cfg w.conn m' text ok = (dec, s', u') → box s' = box w.cfg ∨ ∃ y, box s' = box w.cfg ++ [y] := by
            intro text ok hv
            cases dec with
            | accept => exact .inr ⟨_, hb.accept _ _ _ _ _ _ _ hv⟩
            | reject r => exact .inl (hb.reject _ _ _ _ _ _ _ _ hv)
          rcases hh' with ⟨ls, _, hv⟩ | ⟨ls, part, _, _, hv⟩
          · exact this _ _ hv
          · exact this _ _ hv
        · exact .inl rfl
    · cases h

/-- The same, from one `.await` of a session to the next. -/
theorem after_grows (C : Config L S U) (V : Verdict L S U) (box : S → List (Stored L))
    (hV : ∀ s u m, WholeMessage (C.handleMail s u m) (V s u m)) (hb : Keeps C V box)
    (incoming : List (SrcEv Bytes)) (outgoing : BSink) (s : S) (u : U) (n : Nat) :
    box (after C incoming outgoing s u (n + 1)).2.cfg = box (after C incoming outgoing s u n).2.cfg ∨
      ∃ y, box (after C incoming outgoing s u (n + 1)).2.cfg = box (after C incoming outgoing s u n).2.cfg ++ [y] := by
  have : after C incoming outgoing s u (n + 1) = step C (after C incoming outgoing s u n) := steps_succ C n _
  rw [this]
  exact step_grows hV hb _ (at_after (fun _ _ _ _ _ _ _ _ _ h => handles_byText hV h) incoming outgoing s u n)

/-- C103. What is in the mailbox stays there. -/
theorem c103_kept (C : Config L S U) (V : Verdict L S U) (box : S → List (Stored L))
    (hV : ∀ s u m, WholeMessage (C.handleMail s u m) (V s u m)) (hb : Keeps C V box)
    (incoming : List (SrcEv Bytes)) (outgoing : BSink) (s : S) (u : U) (n k : Nat) :
    box (after C incoming outgoing s u n).2.cfg <+: box (after C incoming outgoing s u (n + k)).2.cfg := by
  induction k with
  | zero => exact List.prefix_refl _
  | succ k ih =>
    refine ih.trans ?_
    rcases after_grows C V box hV hb incoming outgoing s u (n + k) with h | ⟨y, h⟩
    · rw [← Nat.add_assoc, h]; exact List.prefix_refl _
    · rw [← Nat.add_assoc, h]; exact List.prefix_append _ _

/-! ### A session -/

/-- C103: the configuration of the project's tests keeps what it accepts, and nothing else. -/
theorem c103_example_keeps : Keeps (testConfig L) (testVerdict L) testBox := by
  refine ⟨fun s => rfl, fun s u f => rfl, fun s u t m => rfl, fun s u m => rfl, ?_, ?_⟩
  · intro s u m text ok s' u' h
    unfold testVerdict at h
    cases ok with
    | false => simp at h
    | true =>
      by_cases hw : saysWorld text = true
      · simp [hw] at h
      · simp [hw] at h
        rw [← h]
        simp [testBox]
  · intro s u m text ok r s' u' h
    unfold testVerdict at h
    cases ok with
    | false => simp at h; rw [h.2]
    | true =>
      by_cases hw : saysWorld text = true
      · simp [hw] at h; rw [h.2]
      · simp [hw] at h

/-- A session with one mail. -/
abbrev oneMail : Bytes := b!"MAIL FROM:<a@b>\r\nRCPT TO:<c@d>\r\nDATA\r\nhi\r\n.\r\n"

/-- C103: after 18 answers the message is read and nothing is stored; after 19 it is stored, nothing being said; after 20 the
reply is on the wire and not flushed; after 21 the client is told. -/
theorem c103_example :
    ((after (testConfig exampleIp) [.pkt oneMail] ⟨[], []⟩ [] () 18).2.cfg.length = 0 ∧
      (acceptedMails (after (testConfig exampleIp) [.pkt oneMail] ⟨[], []⟩ [] () 18).2.trace).length = 0) ∧
    ((after (testConfig exampleIp) [.pkt oneMail] ⟨[], []⟩ [] () 19).2.cfg.map (·.2.2) = [b!"hi\r\n"] ∧
      (acceptedMails (after (testConfig exampleIp) [.pkt oneMail] ⟨[], []⟩ [] () 19).2.trace).length = 1 ∧
      (acknowledgedMails (after (testConfig exampleIp) [.pkt oneMail] ⟨[], []⟩ [] () 19).2.trace).length = 0) ∧
    (acknowledgedMails (after (testConfig exampleIp) [.pkt oneMail] ⟨[], []⟩ [] () 20).2.trace).length = 0 ∧
    (acknowledgedMails (after (testConfig exampleIp) [.pkt oneMail] ⟨[], []⟩ [] () 21).2.trace).length = 1 := by
  refine ⟨⟨?_, ?_⟩, ⟨?_, ?_, ?_⟩, ?_, ?_⟩ <;> decide +kernel

end Verif
