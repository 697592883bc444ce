import Verif.Spec.Limits
import Verif.Props.EndToEnd
/-
C100: the size limits of RFC 5321.
-/
namespace Verif
open Spec Server
variable {L : IpLib} {S U : Type}

private def xs (N : Nat) : Bytes := List.replicate (N + 1) 120
private def bigHost (N : Nat) : Bytes := joinWith 46 (List.replicate (N + 1) (xs N))
private def bigEmail (N : Nat) : Email L := ⟨xs N, some (.host (bigHost N))⟩
private def bigParams (N : Nat) : Params := (List.range (N + 1)).map fun i => (xs i, none)
private def bigMail (N : Nat) : OutMail L :=
  ⟨some (bigEmail N), bigParams N, List.replicate (N + 1) (bigEmail N, bigParams N), [xs N, b!"\r\n"]⟩

private theorem mem_xs {N : Nat} {c : UInt8} (h : c ∈ xs N) : c = 120 := (List.mem_replicate.1 h).2
private theorem length_xs (N : Nat) : (xs N).length = N + 1 := by simp [xs]

private theorem letter_x : Alnum 120 := .inl (.inr (by decide))

private theorem label_xs (N : Nat) : IsLabel (xs N) :=
  ⟨120, List.replicate N 120, by simp [xs, List.replicate_succ], letter_x,
    fun c hc => by obtain rfl := (List.mem_replicate.1 hc).2; exact .inl letter_x⟩

private theorem join_length (sep : UInt8) (N : Nat) : ∀ ls : List Bytes, ls ≠ [] → (∀ l ∈ ls, N < l.length) →
    N < (joinWith sep ls).length
  | [], h, _ => absurd rfl h
  | [l], _, h => h l (by simp)
  | l :: m :: ls, _, h => by
    have := h l (by simp)
    simp only [joinWith, List.length_append]
    omega

private theorem long_host (N : Nat) : LongHost N (bigHost N) := by
  have h : ∀ l ∈ List.replicate (N + 1) (xs N), N < l.length ∧ 46 ∉ l := by
    intro l hl
    obtain rfl := (List.mem_replicate.1 hl).2
    exact ⟨by rw [length_xs]; omega, fun h => by cases mem_xs h⟩
  exact ⟨join_length _ _ _ (by simp) fun l hl => (h l hl).1, _, rfl, by simp, h⟩

private theorem long_email (N : Nat) : LongEmail N (bigEmail N : Email L) :=
  ⟨by show N < (xs N).length; rw [length_xs]; omega, _, rfl, long_host N⟩

private theorem wf_email (N : Nat) : WFEmail (bigEmail N : Email L) := by
  refine ⟨⟨xs N, .inl ⟨⟨[xs N], by simp, ?_, rfl⟩, rfl⟩⟩, ?_⟩
  · intro l hl
    simp at hl
    subst hl
    exact ⟨by simp [xs], fun c hc => by rw [mem_xs hc]; exact .inl letter_x⟩
  · rintro d ⟨⟩
    exact ⟨_, by simp, fun l hl => by obtain rfl := (List.mem_replicate.1 hl).2; exact label_xs N, rfl⟩

private theorem wf_params (N : Nat) : WFParams (bigParams N) := by
  refine ⟨?_, ?_⟩
  · unfold bigParams
    rw [List.map_map]
    rw [List.Nodup, List.pairwise_map]
    refine List.nodup_range.imp fun hab h => hab ?_
    have := congrArg List.length h
    simp only [Function.comp, length_xs] at this
    omega
  · intro e he
    obtain ⟨i, _, rfl⟩ := List.mem_map.1 he
    exact ⟨label_xs i, by simp⟩

private theorem no_crlf (N : Nat) : NoCrlf (xs N) := by
  rintro ⟨a, b, h⟩
  have : (13 : UInt8) ∈ xs N := by rw [← h]; simp [crlf]
  cases mem_xs this

private theorem oversized (N : Nat) : Oversized N (bigMail N : OutMail L) := by
  have hp : N < (bigParams N).length := by simp [bigParams]
  have he : N < (bigEmail N : Email L).sendTo.length := by
    have : N < (xs N).length := by rw [length_xs]; omega
    simp only [Email.sendTo, bigEmail, List.length_append]
    omega
  have hr : ∀ t ∈ (bigMail N : OutMail L).rcpts, t = (bigEmail N, bigParams N) := fun t ht => (List.mem_replicate.1 ht).2
  refine ⟨⟨_, rfl, long_email N⟩, ⟨by simp [bigMail], ?_⟩, ⟨hp, ?_⟩, ⟨?_, ?_⟩, ?_, ?_⟩
  · intro t ht; rw [hr t ht]; exact long_email N
  · intro t ht; rw [hr t ht]; exact hp
  · simp only [bigMail, Command.sendTo, optEmailSendTo, List.length_append]
    omega
  · intro t ht
    rw [hr t ht]
    simp only [Command.sendTo, List.length_append]
    omega
  · have := length_xs N
    simp only [bigMail, List.flatten_cons, List.length_append]
    omega
  · exact ⟨xs N, [], no_crlf N, by simp [bigMail, crlf], by rw [length_xs]; omega⟩

private theorem wf_mail (N : Nat) : (Item.mail (bigMail N : OutMail L)).WF :=
  ⟨⟨fun e he => by cases he; exact wf_email N, wf_params N⟩,
    fun t ht => by rw [(List.mem_replicate.1 ht).2]; exact ⟨wf_email N, wf_params N⟩, by simp [bigMail]⟩

private theorem whole_text (N : Nat) : wholeLines (bigMail N : OutMail L).text.flatten = (bigMail N : OutMail L).text.flatten := by
  unfold wholeLines
  rw [if_pos]
  right
  exact ⟨xs N, by simp [bigMail, crlf]⟩

/-- C100. The server enforces no limit of its own. Whatever number is taken as the limit, there is a mail that exceeds it in
every respect at once, and every server that is configured to accept this mail receives it whole, however it is packed: the
session ends normally, and the mailbox has got the mail with all its recipients and its text. -/
theorem c100_no_limit (hL : IpLaws L) (N : Nat) : ∃ m : OutMail L, Oversized N m ∧
    ∀ (S U : Type) (C : Config L S U) (V : Verdict L S U) (box : S → List (MailMeta L × Bytes × Bool)),
      SendableConfig C → (∀ s u m, WholeMessage (C.handleMail s u m) (V s u m)) → Accepts C V box m →
      ∀ (incoming : List (SrcEv Bytes)), evBytes incoming = (Item.mail m).bytes →
      ∀ (outgoing : BSink), (∀ o ∈ outgoing.plan, o = .ok) → ∀ (s : S) (u : U),
        ∃ n w, interact C n incoming outgoing s u = (.ok (), w) ∧
          box w.cfg = box s ++ [(m.envelope, m.text.flatten, true)] := by
  refine ⟨bigMail N, oversized N, ?_⟩
  intro S U C V box hs hV hA incoming hin outgoing ho s u
  obtain ⟨n, w, h1, h2, _⟩ := c79_end_to_end hL C V box hs hV [.mail (bigMail N)]
    (by intro i hi; simp at hi; subst hi; exact wf_mail N) (by intro m hm; simp at hm; subst hm; exact hA) incoming
    (by simpa using hin) outgoing ho s u
  refine ⟨n, w, h1 n (Nat.le_refl _), ?_⟩
  rw [h2]
  simp [Item.received, OutMail.envelope, whole_text]

/-- C100, for the configuration of the project's tests, which accepts such mails: no hypothesis is left but the connection. -/
theorem c100_test_config (hL : IpLaws L) (N : Nat) : ∃ m : OutMail L, Oversized N m ∧
    ∀ (incoming : List (SrcEv Bytes)), evBytes incoming = (Item.mail m).bytes →
    ∀ (outgoing : BSink), (∀ o ∈ outgoing.plan, o = .ok) →
      ∃ n w, interact (testConfig L) n incoming outgoing [] () = (.ok (), w) ∧
        w.cfg = [(m.from_, m.rcpts.map (·.1), m.text.flatten)] := by
  refine ⟨bigMail N, oversized N, fun incoming hin outgoing ho => ?_⟩
  have hx : ∀ c : UInt8, c ≠ 120 → c ≠ 13 → c ≠ 10 → c ∉ wholeLines (bigMail N : OutMail L).text.flatten := by
    intro c h1 h2 h3 h
    rw [whole_text] at h
    simp only [bigMail, List.flatten_cons, List.flatten_nil, List.append_nil, List.mem_append] at h
    rcases h with h | h
    · exact h1 (mem_xs h)
    · simp at h
      rcases h with h | h
      · exact h2 h
      · exact h3 h
  obtain ⟨n, w, h1, h2⟩ := c79_test_config hL [.mail (bigMail N)]
    (by intro i hi; simp at hi; subst hi; exact wf_mail N)
    (by
      intro m hm
      simp at hm
      subst hm
      refine ⟨?_, ?_, ?_⟩
      · intro h
        have h := congrArg Email.localpart (Option.some.inj h)
        have : (98 : UInt8) ∈ (bannedSender L).localpart := by simp [bannedSender]
        rw [← h] at this
        cases mem_xs this
      · intro t ht h
        rw [(List.mem_replicate.1 ht).2] at h
        have e : (bigEmail N : Email L).localpartFn = some (xs N) := by
          simp [Email.localpartFn, bigEmail, xs, List.replicate_succ]
        rw [e] at h
        have : (98 : UInt8) ∈ xs N := by rw [Option.some.inj h]; simp
        cases mem_xs this
      · rintro ⟨a, b, h⟩
        refine hx 87 (by decide) (by decide) (by decide) ?_
        rw [← h]
        simp)
    incoming (by simpa using hin) outgoing ho []
  refine ⟨n, w, h1 n (Nat.le_refl _), ?_⟩
  rw [h2]
  simp [Item.received, whole_text]

end Verif
