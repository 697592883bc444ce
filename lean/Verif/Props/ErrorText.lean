import Verif.Model.ErrorText
import Verif.Spec.ErrorText
import Verif.Props.Reply
import Verif.Props.ParseErrors
import Verif.Model.Ip
/-
C117: what the texts of errors say.
-/
namespace Verif
open Spec ErrorText
variable {L : IpLib}

private theorem digit {n : Nat} (h : n < 10) : IsDigit (UInt8.ofNat (48 + n)) ∧ (UInt8.ofNat (48 + n)).toNat - 48 = n := by
  have : n = 0 ∨ n = 1 ∨ n = 2 ∨ n = 3 ∨ n = 4 ∨ n = 5 ∨ n = 6 ∨ n = 7 ∨ n = 8 ∨ n = 9 := by omega
  rcases this with rfl | rfl | rfl | rfl | rfl | rfl | rfl | rfl | rfl | rfl <;> decide

/-- C117. Numbers are written as one writes them. -/
theorem c117_numbers (n : Nat) : Decimal n (decimal n) := by
  fun_induction decimal n with
  | case1 n h =>
    obtain ⟨h1, h2⟩ := digit h
    exact ⟨by simp, by simpa using h1, by simp, by simpa using h2⟩
  | case2 n h ih =>
    obtain ⟨h1, h2, h3, h4⟩ := ih
    obtain ⟨d1, d2⟩ := digit (Nat.mod_lt n (by omega : 0 < 10))
    refine ⟨by simp, ?_, ?_, ?_⟩
    · intro c hc
      rcases List.mem_append.1 hc with hc | hc
      · exact h2 c hc
      · have : c = UInt8.ofNat (48 + n % 10) := by simpa using hc
        rw [this]; exact d1
    · intro hh
      rw [List.head?_append] at hh
      cases hd : decimal (n / 10) with
      | nil => exact absurd hd h1
      | cons x r =>
        rw [hd] at hh
        simp at hh
        subst hh
        have := h3 (by rw [hd]; rfl)
        rw [this] at h4
        simp at h4
        omega
    · rw [List.foldl_append, h4]
      simp only [List.foldl_cons, List.foldl_nil, d2]
      omega

/-- C117. What a refused text of a reply is told: the length it has, if it is too long, and else the value and the place of its first byte
that may not be in a reply. -/
theorem c117_build (code : ReplyCode) (last : IsLast) (text : Bytes) (e : BuildErr) (h : ReplyLine.build code last text = .error e) :
    (506 < text.length ∧ ∃ n, Decimal text.length n ∧ ErrorText.build e = b!"Line is too long: " ++ n ++ b!" (max: 506)") ∨
    (text.length ≤ 506 ∧ ∃ before b after p v, text = before ++ b :: after ∧ (∀ c ∈ before, TextByte c) ∧ ¬ TextByte b ∧
      Decimal before.length p ∧ Decimal b.toNat v ∧
      ErrorText.build e = b!"Disallowed byte found at position " ++ p ++ b!": " ++ v) := by
  by_cases hl : 506 < text.length
  · rw [c17_too_long code last text hl] at h
    cases h
    refine .inl ⟨hl, _, c117_numbers _, ?_⟩
    have : decimal 506 = b!"506" := by decide +kernel
    simp only [ErrorText.build, this, List.append_assoc]
    rfl
  · have hl : text.length ≤ 506 := by omega
    cases e with
    | lineTooLong n m =>
      exfalso
      unfold ReplyLine.build ReplyLine.maxLen at h
      rw [if_neg (by omega)] at h
      split at h <;> simp at h
    | disallowedByte b p =>
      obtain ⟨h1, h2, h3⟩ := (c17_bad_byte code last text b p hl).1 h
      obtain ⟨hp, e⟩ := List.getElem?_eq_some_iff.1 h1
      refine .inr ⟨hl, text.take p, b, text.drop (p + 1), _, _, by rw [← e]; simp, ?_, h2, c117_numbers _, c117_numbers _, ?_⟩
      · intro c hc
        obtain ⟨q, hq, rfl⟩ := List.mem_iff_getElem.1 hc
        have hq' : q < p := Nat.lt_of_lt_of_le hq (by simp; exact Nat.min_le_left ..)
        exact h3 q hq' _ (by simp)
      · simp only [ErrorText.build, List.length_take, Nat.min_eq_left (Nat.le_of_lt hp)]

private theorem split_at {p p' r r' : Bytes} {x x' : UInt8} (hp : ∀ c ∈ p, IsDigit c) (hp' : ∀ c ∈ p', IsDigit c) (hx : ¬ IsDigit x)
    (hx' : ¬ IsDigit x') (h : p ++ x :: r = p' ++ x' :: r') : p = p' ∧ x :: r = x' :: r' := by
  induction p generalizing p' with
  | nil =>
    cases p' with
    | nil => exact ⟨rfl, h⟩
    | cons a p' => simp at h; exact absurd (h.1 ▸ hp' a (by simp)) hx
  | cons a p ih =>
    cases p' with
    | nil => simp at h; exact absurd (h.1 ▸ hp a (by simp)) hx'
    | cons b p' =>
      simp at h
      obtain ⟨e1, e2⟩ := ih (fun c hc => hp c (by simp [hc])) (fun c hc => hp' c (by simp [hc])) h.2
      exact ⟨by rw [h.1, e1], e2⟩

private theorem decimal_inj {a b : Nat} (h : decimal a = decimal b) : a = b := by
  rw [← (c117_numbers a).2.2.2, ← (c117_numbers b).2.2.2, h]

/-- C117. Different errors have different texts. -/
theorem c117_distinct :
    (∀ e e', ErrorText.build e = ErrorText.build e' → e = e') ∧
    (∀ e e' t, ErrorText.parse e = some t → ErrorText.parse e' = some t → e = e') := by
  constructor
  · intro e e' h
    cases e with
    | lineTooLong a b =>
      cases e' with
      | lineTooLong a' b' =>
        simp only [ErrorText.build, List.append_assoc] at h
        have h := List.append_cancel_left h
        obtain ⟨h1, h2⟩ := split_at (c117_numbers a).2.1 (c117_numbers a').2.1 (x := 32) (x' := 32) (by decide) (by decide) h
        have h2 : b!" (max: " ++ (decimal b ++ b!")") = b!" (max: " ++ (decimal b' ++ b!")") := h2
        have h2 := List.append_cancel_left h2
        obtain ⟨h3, _⟩ := split_at (c117_numbers b).2.1 (c117_numbers b').2.1 (x := 41) (x' := 41) (by decide) (by decide) h2
        rw [decimal_inj h1, decimal_inj h3]
      | disallowedByte b' p' =>
        have := congrArg List.head? h
        simp [ErrorText.build] at this
    | disallowedByte b p =>
      cases e' with
      | lineTooLong a' b' =>
        have := congrArg List.head? h
        simp [ErrorText.build] at this
      | disallowedByte b' p' =>
        simp only [ErrorText.build, List.append_assoc] at h
        have h := List.append_cancel_left h
        obtain ⟨h1, h2⟩ := split_at (c117_numbers p).2.1 (c117_numbers p').2.1 (x := 58) (x' := 58) (by decide) (by decide) h
        have h2 : b!": " ++ decimal b.toNat = b!": " ++ decimal b'.toNat := h2
        have h2 := List.append_cancel_left h2
        rw [decimal_inj h1, UInt8.toNat_inj.1 (decimal_inj h2)]
  · intro e e' t h h'
    cases e <;> simp [ErrorText.parse] at h
    cases e' <;> simp [ErrorText.parse] at h'
    rename_i n n'
    rw [← h] at h'
    have h' : b!"Input contains " ++ (decimal n' ++ b!" trailing characters") = b!"Input contains " ++ (decimal n ++ b!" trailing characters") := by
      simpa using h'
    have h' := List.append_cancel_left h'
    obtain ⟨h1, _⟩ := split_at (c117_numbers n').2.1 (c117_numbers n).2.1 (x := 32) (x' := 32) (by decide) (by decide) h'
    rw [decimal_inj h1]

private theorem decimal_length (k : Nat) : ∀ n, n < 10 ^ (k + 1) → (decimal n).length ≤ k + 1 := by
  induction k with
  | zero => intro n h; rw [decimal, if_pos (by simpa using h)]; simp
  | succ k ih =>
    intro n h
    rw [decimal]
    split
    · simp
    · have := ih (n / 10) (by rw [Nat.div_lt_iff_lt_mul (by omega)]; rw [Nat.pow_succ] at h; exact h)
      simp; omega

private theorem decimal_text (n : Nat) : ∀ c ∈ decimal n, TextByte c := by
  intro c hc
  have := (c117_numbers n).2.1 c hc
  unfold IsDigit at this
  right
  constructor
  · exact UInt8.le_trans (by decide) this.1
  · exact UInt8.le_trans this.2 (by decide)

private theorem texts (c : UInt8) (h : c ∈ b!"Line is too long: " ∨ c ∈ b!" (max: " ∨ c ∈ b!")" ∨ c ∈ b!"Disallowed byte found at position " ∨
    c ∈ b!": " ∨ c ∈ b!"Input contains " ∨ c ∈ b!" trailing characters") : TextByte c := by
  have key : ∀ c ∈ b!"Line is too long: " ++ b!" (max: " ++ b!")" ++ b!"Disallowed byte found at position " ++ b!": " ++ b!"Input contains " ++
      b!" trailing characters", TextByte c := by decide +kernel
  refine key c ?_
  simp only [List.mem_append]
  rcases h with h | h | h | h | h | h | h
  · exact .inl (.inl (.inl (.inl (.inl (.inl h)))))
  · exact .inl (.inl (.inl (.inl (.inl (.inr h)))))
  · exact .inl (.inl (.inl (.inl (.inr h))))
  · exact .inl (.inl (.inl (.inr h)))
  · exact .inl (.inl (.inr h))
  · exact .inl (.inr h)
  · exact .inr h

/-- C117. The texts may be sent: on a machine with numbers of 64 bits, the text of any error fits in one line of a reply. -/
theorem c117_sendable (code : ReplyCode) (last : IsLast) :
    (∀ e, (∀ n m, e = .lineTooLong n m → n < 2 ^ 64 ∧ m < 2 ^ 64) → (∀ b n, e = .disallowedByte b n → n < 2 ^ 64) →
      ReplyLine.build code last (ErrorText.build e) = .ok ⟨code, last, ErrorText.build e⟩) ∧
    (∀ n t, n < 2 ^ 64 → ErrorText.parse (.didNotConsumeEverything n) = some t → ReplyLine.build code last t = .ok ⟨code, last, t⟩) := by
  have dl : ∀ n, n < 2 ^ 64 → (decimal n).length ≤ 20 := fun n h => decimal_length 19 n (Nat.lt_of_lt_of_le h (by decide))
  constructor
  · intro e h1 h2
    refine (c17_build_ok ..).2 ⟨⟨?_, ?_⟩, rfl⟩
    · cases e with
      | lineTooLong n m =>
        have := dl n (h1 n m rfl).1
        have := dl m (h1 n m rfl).2
        simp [ErrorText.build]; omega
      | disallowedByte b n =>
        have := dl n (h2 b n rfl)
        have := dl b.toNat (Nat.lt_of_lt_of_le b.toNat_lt (by decide))
        simp [ErrorText.build]; omega
    · intro c hc
      cases e with
      | lineTooLong n m =>
        simp only [ErrorText.build, List.mem_append] at hc
        rcases hc with (((hc | hc) | hc) | hc) | hc
        · exact texts c (.inl hc)
        · exact decimal_text _ c hc
        · exact texts c (.inr (.inl hc))
        · exact decimal_text _ c hc
        · exact texts c (.inr (.inr (.inl hc)))
      | disallowedByte b n =>
        simp only [ErrorText.build, List.mem_append] at hc
        rcases hc with ((hc | hc) | hc) | hc
        · exact texts c (.inr (.inr (.inr (.inl hc))))
        · exact decimal_text _ c hc
        · exact texts c (.inr (.inr (.inr (.inr (.inl hc)))))
        · exact decimal_text _ c hc
  · intro n t hn ht
    cases ht
    refine (c17_build_ok ..).2 ⟨⟨?_, ?_⟩, rfl⟩
    · have := dl n hn
      simp; omega
    · intro c hc
      simp only [List.mem_append] at hc
      rcases hc with (hc | hc) | hc
      · exact texts c (.inr (.inr (.inr (.inr (.inr (.inl hc))))))
      · exact decimal_text _ c hc
      · exact texts c (.inr (.inr (.inr (.inr (.inr (.inr hc))))))

/-- C117. The number in the text of a refused command (and C87 says which one it is). -/
theorem c117_trailing (n : Nat) : ∃ d, Decimal n d ∧
    ErrorText.parse (.didNotConsumeEverything n) = some (b!"Input contains " ++ d ++ b!" trailing characters") :=
  ⟨_, c117_numbers n, rfl⟩

/-- C117, cases: a text with a line end in it, one of 600 bytes, and a command with something behind it. -/
theorem c117_example :
    (match ReplyLine.build ⟨250⟩ .yes b!"two\r\nlines" with | .ok _ => none | .error e => some (ErrorText.build e)) =
      some b!"Disallowed byte found at position 3: 13" ∧
    (match ReplyLine.build ⟨250⟩ .yes (List.replicate 600 65) with | .ok _ => none | .error e => some (ErrorText.build e)) =
      some b!"Line is too long: 600 (max: 506)" ∧
    (match (Command.parse b!"DATA\r\nMAIL" : Except ParseErr (Command (Ip.stdIp 2))) with
      | .ok _ => none | .error e => ErrorText.parse e) = some b!"Input contains 4 trailing characters" := by
  decide +kernel

end Verif
