import Verif.Proofs.History
/-
C43, C44, C56: what must have happened before a callback of a session.
-/
namespace Verif
open Spec Server
variable {L : IpLib} {S U : Type}

private theorem acceptedRcpts_append (a b : List (Ev L)) :
    acceptedRcpts (a ++ b) = acceptedRcpts a ++ acceptedRcpts b := by
  fun_induction acceptedRcpts a <;> simp_all [acceptedRcpts]

/-- An accepted recipient, or one that a filter put into the envelope itself. -/
private def HasRcpt (evs : List (Ev L)) : Prop :=
  (∃ t t' mi mo, Ev.filterTo t t' mi mo .accept ∈ evs) ∨
  (∃ t t' mi mo r, Ev.filterTo t t' mi mo (.reject r) ∈ evs ∧ mi.to = [] ∧ mo.to ≠ [])

private theorem HasRcpt.append {a : List (Ev L)} (h : HasRcpt a) (b : List (Ev L)) : HasRcpt (a ++ b) := by
  rcases h with ⟨t, t', mi, mo, h⟩ | ⟨t, t', mi, mo, r, h, h'⟩
  · exact .inl ⟨t, t', mi, mo, List.mem_append_left _ h⟩
  · exact .inr ⟨t, t', mi, mo, r, List.mem_append_left _ h, h'⟩

/-- The open transaction in a history. -/
private def Open (pre : List (Ev L)) (st : SState L S U) : Prop :=
  ∀ m, st.mail = some m → ∃ a f f' b, pre = a ++ .filterFrom f f' .accept :: b ∧ (∀ e ∈ b, InTransaction e) ∧
    (m.to ≠ [] → HasRcpt b) ∧ m = b.foldl envelopeStep ⟨f', []⟩

private theorem Open.extend {pre : List (Ev L)} {st st' : SState L S U} (evs : List (Ev L)) (h : Open pre st)
    {m m' : MailMeta L} (hm : st.mail = some m) (hm' : st'.mail = some m')
    (h1 : ∀ e ∈ evs, InTransaction e) (h2 : m'.to ≠ [] → m.to ≠ [] ∨ HasRcpt evs)
    (h3 : evs.foldl envelopeStep m = m') : Open (pre ++ evs) st' := by
  intro x hx
  rw [hm'] at hx
  obtain rfl : m' = x := by simpa using hx
  obtain ⟨a, f, f', b, k1, k2, k3, k4⟩ := h m hm
  refine ⟨a, f, f', b ++ evs, by simp [k1], ?_, ?_, ?_⟩
  · intro e he
    rcases List.mem_append.1 he with he | he
    · exact k2 e he
    · exact h1 e he
  · intro hne
    rcases h2 hne with h2 | h2
    · exact (k3 h2).append _
    · rcases h2 with ⟨t, t', mi, mo, h⟩ | ⟨t, t', mi, mo, r, h, h'⟩
      · exact .inl ⟨t, t', mi, mo, List.mem_append_right _ h⟩
      · exact .inr ⟨t, t', mi, mo, r, List.mem_append_right _ h, h'⟩
  · rw [List.foldl_append, ← k4, h3]

/-- What must have happened before `handle_mail` was called with envelope `m`. -/
private def HandledAfter (C : Config L S U) (pre : List (Ev L)) (m : MailMeta L) : Prop :=
  ∃ a f f' b m0 s', pre = a ++ .filterFrom f f' .accept :: b ++ [.filterData m0 m .accept, .reply (C.dataOkay s')] ∧
    (∀ e ∈ b, InTransaction e) ∧ HasRcpt b ∧ m0 = b.foldl envelopeStep ⟨f', []⟩ ∧ m0.to ≠ []

private theorem handled_after (C : Config L S U) (fuel : Nat) (incoming : List (SrcEv Bytes)) (outgoing : BSink)
    (s : S) (u : U) {r w} (h : interact C fuel incoming outgoing s u = (r, w)) {pre m post}
    (ht : w.trace = pre ++ .handleMail m :: post) : HandledAfter C pre m := by
  refine session_hist C fuel incoming outgoing s u h (Good := fun pre e => ∀ m, e = .handleMail m → HandledAfter C pre m)
    (Inv := Open) ⟨by simp, by simp [Open]⟩ (by simp) ?_ ?_ pre _ post ht m rfl
  · intro pre st l hi
    refine ⟨by simp, ?_⟩
    intro m hm
    exact hi.extend [.line l] hm hm (by simp [InTransaction]) (fun h => .inl h) rfl m hm
  · intro pre cmd st b evs st' b' hi hex
    have nh : (∀ m, Ev.handleMail m ∉ evs) → ∀ x e y, evs = x ++ e :: y →
        ∀ m, e = .handleMail m → HandledAfter C (pre ++ x) m := by
      intro hno x e y hxy m he
      exact absurd (by rw [hxy, he]; simp) (hno m)
    cases hex with
    | unrecognized =>
      exact ⟨nh (by simp), fun m hm => hi.extend _ hm hm (by simp [InTransaction]) (fun h => .inl h) rfl m hm⟩
    | unimplemented _ =>
      exact ⟨nh (by simp), fun m hm => hi.extend _ hm hm (by simp [InTransaction]) (fun h => .inl h) rfl m hm⟩
    | mailAgain =>
      exact ⟨nh (by simp), fun m hm => hi.extend _ hm hm (by simp [InTransaction]) (fun h => .inl h) rfl m hm⟩
    | mailAccepted hf =>
      rename_i s u f p f' s' u'
      refine ⟨nh (by simp), ?_⟩
      intro m hm
      simp at hm
      subst hm
      exact ⟨pre ++ [.newMail], f, f', [.reply (C.mailOkay s')], by simp, by simp [InTransaction], by simp, rfl⟩
    | mailRefused hf => exact ⟨nh (by simp), by simp [Open]⟩
    | rcptEarly => exact ⟨nh (by simp), by simp [Open]⟩
    | rcptAccepted hf =>
      refine ⟨nh (by simp), hi.extend _ rfl rfl (by simp [InTransaction]) (fun _ => .inr (.inl ?_)) rfl⟩
      exact ⟨_, _, _, _, List.mem_cons_self⟩
    | rcptRefused hf =>
      rename_i s u m t p t' m' rf s' u'
      refine ⟨nh (by simp), hi.extend _ rfl rfl (by simp [InTransaction]) ?_ rfl⟩
      intro hne
      by_cases he : m.to = []
      · exact .inr (.inr ⟨_, _, _, _, _, List.mem_cons_self, he, hne⟩)
      · exact .inl he
    | dataEarly => exact ⟨nh (by simp), by simp [Open]⟩
    | dataNoRcpt =>
      exact ⟨nh (by simp), fun m hm => hi.extend _ hm hm (by simp [InTransaction]) (fun h => .inl h) rfl m hm⟩
    | dataRefused hne hf =>
      exact ⟨nh (by simp), hi.extend _ rfl rfl (by simp [InTransaction]) (fun _ => .inl hne) rfl⟩
    | dataHandled hne hf hh =>
      rename_i s u m0 m1 s' u' d s2 u2
      refine ⟨?_, by simp [Open]⟩
      intro x e y hxy m he
      subst he
      have : x = [.filterData m0 m1 .accept, .reply (C.dataOkay s')] ∧ m = m1 := by
        simp [List.cons_eq_append_iff] at hxy
        obtain ⟨_, rfl, _, rfl, h⟩ := hxy
        obtain ⟨rfl, rfl, _⟩ := h
        simp
      obtain ⟨rfl, rfl⟩ := this
      obtain ⟨a, f, f', b, k1, k2, k3, k4⟩ := hi m0 rfl
      exact ⟨a, f, f', b, m0, s', by simp [k1], k2, k3 hne, k4, hne⟩

/-- C43. `handle_mail` is called with an envelope only immediately after `filter_data` accepted the transaction
with that envelope and the `data_okay` reply was sent. The transaction was opened by a MAIL whose sender
`filter_from` accepted; since then no other transaction was opened and no message handed over; and it had at
least one recipient, accepted by `filter_to` (or put into the envelope by a `filter_to` that refused). -/
theorem c43_sequence (C : Config L S U) (fuel : Nat) (incoming : List (SrcEv Bytes)) (outgoing : BSink)
    (s : S) (u : U) (pre post : List (Ev L)) (m : MailMeta L)
    (ht : (interact C fuel incoming outgoing s u).2.trace = pre ++ .handleMail m :: post) :
    ∃ before sender sender' since envelope s',
      pre = before ++ .filterFrom sender sender' .accept :: since ++
        [.filterData envelope m .accept, .reply (C.dataOkay s')] ∧
      (∀ e ∈ since, InTransaction e) ∧ envelope.to ≠ [] ∧
      ((∃ t t' mi mo, Ev.filterTo t t' mi mo .accept ∈ since) ∨
       (∃ t t' mi mo r, Ev.filterTo t t' mi mo (.reject r) ∈ since ∧ mi.to = [] ∧ mo.to ≠ [])) := by
  obtain ⟨a, f, f', b, m0, s', h1, h2, h3, h4, h5⟩ :=
    handled_after C fuel incoming outgoing s u (interact_eta ..) ht
  exact ⟨a, f, f', b, m0, s', h1, h2, h5, h3⟩

/-- C43, for filters that do not touch the envelope they are shown: a recipient was accepted. -/
theorem c43_recipient (C : Config L S U) (hk : KeepsEnvelope C) (fuel : Nat) (incoming : List (SrcEv Bytes))
    (outgoing : BSink) (s : S) (u : U) (pre post : List (Ev L)) (m : MailMeta L)
    (ht : (interact C fuel incoming outgoing s u).2.trace = pre ++ .handleMail m :: post) :
    ∃ before sender sender' since envelope s',
      pre = before ++ .filterFrom sender sender' .accept :: since ++
        [.filterData envelope m .accept, .reply (C.dataOkay s')] ∧
      (∀ e ∈ since, InTransaction e) ∧
      (∃ t t' mi mo, Ev.filterTo t t' mi mo .accept ∈ since) := by
  obtain ⟨a, f, f', b, m0, s', h1, h2, _, h3 | ⟨t, t', mi, mo, rf, h3, h4, h5⟩⟩ :=
    c43_sequence C fuel incoming outgoing s u pre post m ht
  · exact ⟨a, f, f', b, m0, s', h1, h2, h3⟩
  · exfalso
    rw [h1] at ht
    have := session_hist C fuel incoming outgoing s u (interact_eta ..)
      (Good := fun _ e => ∀ t t' mi mo d, e = .filterTo t t' mi mo d → mo = mi) (Inv := fun _ _ => True)
      (by simp) (by simp) (by simp)
      (by
        intro pre cmd st b evs st' b' _ hex
        refine ⟨?_, trivial⟩
        intro x e y hxy t t' mi mo d he
        subst he
        have hmem : Ev.filterTo t t' mi mo d ∈ evs := by rw [hxy]; simp
        cases hex <;> simp at hmem
        · rename_i s0 u0 m0 t0 p0 t1 m1 s1 u1 hf
          have := hk.to s0 u0 t0 m0
          rw [hf] at this
          obtain ⟨_, _, rfl, rfl, _⟩ := hmem
          exact this
        · rename_i s0 u0 m0 t0 p0 t1 m1 r1 s1 u1 hf
          have := hk.to s0 u0 t0 m0
          rw [hf] at this
          obtain ⟨_, _, rfl, rfl, _⟩ := hmem
          exact this)
    obtain ⟨x, y, hxy⟩ := List.append_of_mem h3
    have := this (a ++ .filterFrom f f' .accept :: x) (.filterTo t t' mi mo (.reject rf))
      (y ++ [.filterData m0 m .accept, .reply (C.dataOkay s')] ++ .handleMail m :: post) (by rw [ht, hxy]; simp)
      t t' mi mo _ rfl
    rw [this] at h5
    exact h5 h4

/-- C44, for every configuration: the envelope `filter_data` is shown is the accepted sender without recipients,
changed step by step as the filters said: each accepted recipient is added at the end. -/
theorem c44_replay (C : Config L S U) (fuel : Nat) (incoming : List (SrcEv Bytes)) (outgoing : BSink)
    (s : S) (u : U) (pre post : List (Ev L)) (m : MailMeta L)
    (ht : (interact C fuel incoming outgoing s u).2.trace = pre ++ .handleMail m :: post) :
    ∃ before sender sender' since envelope s',
      pre = before ++ .filterFrom sender sender' .accept :: since ++
        [.filterData envelope m .accept, .reply (C.dataOkay s')] ∧
      (∀ e ∈ since, InTransaction e) ∧ envelope = since.foldl envelopeStep ⟨sender', []⟩ := by
  obtain ⟨a, f, f', b, m0, s', h1, h2, h3, h4, h5⟩ :=
    handled_after C fuel incoming outgoing s u (interact_eta ..) ht
  exact ⟨a, f, f', b, m0, s', h1, h2, h4⟩

/-- The open transaction in a history, for filters that keep the envelope. -/
private def OpenKept (pre : List (Ev L)) (st : SState L S U) : Prop :=
  ∀ m, st.mail = some m → ∃ a f b, pre = a ++ .filterFrom f m.from_ .accept :: b ∧ (∀ e ∈ b, InTransaction e) ∧
    m.to = acceptedRcpts b

private theorem OpenKept.extend {pre : List (Ev L)} {st st' : SState L S U} (evs : List (Ev L)) (h : OpenKept pre st)
    {m m' : MailMeta L} (hm : st.mail = some m) (hm' : st'.mail = some m')
    (h1 : ∀ e ∈ evs, InTransaction e) (h2 : m'.from_ = m.from_)
    (h3 : m'.to = m.to ++ acceptedRcpts evs) : OpenKept (pre ++ evs) st' := by
  intro x hx
  rw [hm'] at hx
  obtain rfl : m' = x := by simpa using hx
  obtain ⟨a, f, b, k1, k2, k3⟩ := h m hm
  refine ⟨a, f, b ++ evs, by simp [k1, h2], ?_, ?_⟩
  · intro e he
    rcases List.mem_append.1 he with he | he
    · exact k2 e he
    · exact h1 e he
  · rw [acceptedRcpts_append, h3, k3]

/-- C44. With filters that leave the envelope alone, `handle_mail` is given exactly the sender accepted by the
MAIL of the current transaction, and exactly the recipients accepted since then, in their order. -/
theorem c44_envelope (C : Config L S U) (hk : KeepsEnvelope C) (fuel : Nat) (incoming : List (SrcEv Bytes))
    (outgoing : BSink) (s : S) (u : U) (pre post : List (Ev L)) (m : MailMeta L)
    (ht : (interact C fuel incoming outgoing s u).2.trace = pre ++ .handleMail m :: post) :
    ∃ before sender since, pre = before ++ .filterFrom sender m.from_ .accept :: since ∧
      (∀ e ∈ since, InTransaction e) ∧ m.to = acceptedRcpts since := by
  refine session_hist C fuel incoming outgoing s u (interact_eta ..) (Good := fun pre e => ∀ m, e = .handleMail m →
    ∃ before sender since, pre = before ++ .filterFrom sender m.from_ .accept :: since ∧
      (∀ e ∈ since, InTransaction e) ∧ m.to = acceptedRcpts since)
    (Inv := OpenKept) ⟨by simp, by simp [OpenKept]⟩ (by simp) ?_ ?_ pre _ post ht m rfl
  · intro pre st l hi
    refine ⟨by simp, ?_⟩
    intro m hm
    exact hi.extend [.line l] hm hm (by simp [InTransaction]) rfl (by simp [acceptedRcpts]) m hm
  · intro pre cmd st b evs st' b' hi hex
    have nh : (∀ m, Ev.handleMail m ∉ evs) → ∀ x e y, evs = x ++ e :: y →
        ∀ m, e = .handleMail m → ∃ before sender since, pre ++ x = before ++ .filterFrom sender m.from_ .accept :: since ∧
      (∀ e ∈ since, InTransaction e) ∧ m.to = acceptedRcpts since := by
      intro hno x e y hxy m he
      exact absurd (by rw [hxy, he]; simp) (hno m)
    cases hex with
    | unrecognized =>
      exact ⟨nh (by simp), fun m hm => hi.extend _ hm hm (by simp [InTransaction]) rfl (by simp [acceptedRcpts]) m hm⟩
    | unimplemented _ =>
      exact ⟨nh (by simp), fun m hm => hi.extend _ hm hm (by simp [InTransaction]) rfl (by simp [acceptedRcpts]) m hm⟩
    | mailAgain =>
      exact ⟨nh (by simp), fun m hm => hi.extend _ hm hm (by simp [InTransaction]) rfl (by simp [acceptedRcpts]) m hm⟩
    | mailAccepted hf =>
      rename_i s u f p f' s' u'
      refine ⟨nh (by simp), ?_⟩
      intro m hm
      simp at hm
      subst hm
      exact ⟨pre ++ [.newMail], f, [.reply (C.mailOkay s')], by simp, by simp [InTransaction], rfl⟩
    | mailRefused hf => exact ⟨nh (by simp), by simp [OpenKept]⟩
    | rcptEarly => exact ⟨nh (by simp), by simp [OpenKept]⟩
    | rcptAccepted hf =>
      rename_i s u m t p t' m' s' u'
      have := hk.to s u t m
      rw [hf] at this
      dsimp only at this
      subst this
      exact ⟨nh (by simp), hi.extend _ rfl rfl (by simp [InTransaction]) rfl (by simp [acceptedRcpts])⟩
    | rcptRefused hf =>
      rename_i s u m t p t' m' rf s' u'
      have := hk.to s u t m
      rw [hf] at this
      dsimp only at this
      subst this
      exact ⟨nh (by simp), hi.extend _ rfl rfl (by simp [InTransaction]) rfl (by simp [acceptedRcpts])⟩
    | dataEarly => exact ⟨nh (by simp), by simp [OpenKept]⟩
    | dataNoRcpt =>
      exact ⟨nh (by simp), fun m hm => hi.extend _ hm hm (by simp [InTransaction]) rfl (by simp [acceptedRcpts]) m hm⟩
    | dataRefused hne hf =>
      rename_i s u m m' rf s' u'
      have := hk.data s u m
      rw [hf] at this
      dsimp only at this
      subst this
      exact ⟨nh (by simp), hi.extend _ rfl rfl (by simp [InTransaction]) rfl (by simp [acceptedRcpts])⟩
    | dataHandled hne hf hh =>
      rename_i s u m0 m1 s' u' d s2 u2
      have := hk.data s u m0
      rw [hf] at this
      dsimp only at this
      subst this
      refine ⟨?_, by simp [OpenKept]⟩
      intro x e y hxy m he
      subst he
      have : x = [.filterData m1 m1 .accept, .reply (C.dataOkay s')] ∧ m = m1 := by
        simp [List.cons_eq_append_iff] at hxy
        obtain ⟨_, rfl, _, rfl, h⟩ := hxy
        obtain ⟨rfl, rfl, _⟩ := h
        simp
      obtain ⟨rfl, rfl⟩ := this
      obtain ⟨a, f, b, k1, k2, k3⟩ := hi m rfl
      refine ⟨a, f, b ++ [.filterData m m .accept, .reply (C.dataOkay s')], by simp [k1], ?_, ?_⟩
      · intro e he
        rcases List.mem_append.1 he with he | he
        · exact k2 e he
        · simp at he
          rcases he with rfl | rfl <;> trivial
      · rw [acceptedRcpts_append, k3]
        simp [acceptedRcpts]

/-! ### C56 -/

/-- C56. Each `filter_from` call is immediately preceded by a `new_mail` call. -/
theorem c56_before_filter_from (C : Config L S U) (fuel : Nat) (incoming : List (SrcEv Bytes)) (outgoing : BSink)
    (s : S) (u : U) (pre post : List (Ev L)) (f f' : Option (Email L)) (d : Decision)
    (ht : (interact C fuel incoming outgoing s u).2.trace = pre ++ .filterFrom f f' d :: post) :
    ∃ pre', pre = pre' ++ [.newMail] := by
  refine session_hist C fuel incoming outgoing s u (interact_eta ..) (Inv := fun _ _ => True)
    (Good := fun pre e => ∀ f f' d, e = .filterFrom f f' d → ∃ pre', pre = pre' ++ [.newMail])
    (by simp) (by simp) (by simp) ?_ pre _ post ht f f' d rfl
  intro pre cmd st b evs st' b' _ hex
  refine ⟨?_, trivial⟩
  intro x e y hxy f f' d he
  subst he
  have hm : Ev.filterFrom f f' d ∈ evs := by rw [hxy]; simp
  cases hex <;> simp at hm
  all_goals
    simp [List.cons_eq_append_iff] at hxy
    obtain ⟨_, rfl, rfl, _⟩ := hxy
    exact ⟨pre, by simp⟩

/-- Every `new_mail` is directly followed by `filter_from`. -/
private def NextOk (evs : List (Ev L)) : Prop :=
  ∀ x y, evs = x ++ .newMail :: y → ∃ f f' d y', y = .filterFrom f f' d :: y'

private theorem NextOk.append {a b : List (Ev L)} (ha : NextOk a) (hb : NextOk b) : NextOk (a ++ b) := by
  intro x y h
  rcases List.append_eq_append_iff.1 h with ⟨c, rfl, hc⟩ | ⟨c, rfl, hc⟩
  · exact hb c y hc
  · rcases c with _ | ⟨c0, c⟩
    · exact hb [] y (by simpa using hc.symm)
    · simp at hc
      obtain ⟨rfl, rfl⟩ := hc
      obtain ⟨f, f', d, y', rfl⟩ := ha x c rfl
      exact ⟨f, f', d, y' ++ b, by simp⟩

private theorem nextOk_of_not_mem {a : List (Ev L)} (h : Ev.newMail ∉ a) : NextOk a := by
  intro x y hxy
  exact absurd (by rw [hxy]; simp) h

private theorem nextOk_mail (f f' : Option (Email L)) (d : Decision) {a : List (Ev L)} (h : Ev.newMail ∉ a) :
    NextOk (.newMail :: .filterFrom f f' d :: a) := by
  intro x y hxy
  rcases x with _ | ⟨x0, x⟩
  · simp at hxy
    exact ⟨f, f', d, a, hxy.symm⟩
  · simp at hxy
    exfalso
    rcases x with _ | ⟨x1, x⟩
    · simp at hxy
    · simp at hxy
      exact h (by rw [hxy.2.2]; simp)

private theorem dialogue_nextOk {C : Config L S U} {H : Handling L S U} {st b evs st' b'}
    (h : Dialogue C H st b evs st' b') : NextOk evs := by
  induction h with
  | nil => exact nextOk_of_not_mem (by simp)
  | @cons st l t evs st1 b1 evs' st2 b2 h1 h2 h3 ih =>
    have : NextOk evs := by
      clear ih
      generalize (commandOn (l ++ crlf) : Option (Command L)) = c at h2
      cases h2 with
      | mailAccepted _ => exact nextOk_mail _ _ _ (by simp)
      | mailRefused _ => exact nextOk_mail _ _ _ (by simp)
      | _ => exact nextOk_of_not_mem (by simp)
    have h0 : NextOk ([.line (l ++ crlf)] : List (Ev L)) := nextOk_of_not_mem (by simp)
    have := (h0.append this).append ih
    simpa using this

/-- C56. Each `new_mail` call is immediately followed by a `filter_from` call: it is called at no other time. -/
theorem c56_new_mail_then_filter (C : Config L S U) (fuel : Nat) (incoming : List (SrcEv Bytes)) (outgoing : BSink)
    (s : S) (u : U) (pre post : List (Ev L))
    (ht : (interact C fuel incoming outgoing s u).2.trace = pre ++ .newMail :: post) :
    ∃ f f' d post', post = .filterFrom f f' d :: post' := by
  rcases trace_shape C fuel incoming outgoing s u (interact_eta ..) with ⟨h1, _⟩ | ⟨evs, rest, st, b, h1, h2, _, h4⟩
  · rw [h1] at ht
    have hm : Ev.newMail ∈ (errEv (interact C fuel incoming outgoing s u).1 : List (Ev L)) := by rw [ht]; simp
    revert hm
    cases (interact C fuel incoming outgoing s u).1 <;> simp [errEv]
  · rw [h1] at ht
    rcases pre with _ | ⟨p0, pre⟩
    · simp at ht
    · simp at ht
      obtain ⟨rfl, ht⟩ := ht
      rcases List.append_eq_append_iff.1 ht with ⟨c, rfl, hc⟩ | ⟨c, rfl, hc⟩
      · exfalso
        have hm : Ev.newMail ∈ (errEv (interact C fuel incoming outgoing s u).1 : List (Ev L)) := by rw [hc]; simp
        revert hm
        cases (interact C fuel incoming outgoing s u).1 <;> simp [errEv]
      · rcases c with _ | ⟨c0, c⟩
        · exfalso
          simp at hc
          have hm : Ev.newMail ∈ (errEv (interact C fuel incoming outgoing s u).1 : List (Ev L)) := by rw [← hc]; simp
          revert hm
          cases (interact C fuel incoming outgoing s u).1 <;> simp [errEv]
        · simp at hc
          obtain ⟨rfl, rfl⟩ := hc
          obtain ⟨f, f', d, y, hy⟩ := dialogue_nextOk h2 pre (c ++ rest) (by simp)
          rcases c with _ | ⟨c1, c⟩
          · exfalso
            simp at hy
            have := h4 (.filterFrom f f' d) (by rw [hy]; rfl)
            exact this
          · simp at hy
            exact ⟨f, f', d, c ++ errEv _, by rw [hy.1]; rfl⟩

end Verif
