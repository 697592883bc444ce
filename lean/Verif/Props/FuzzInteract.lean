import Verif.Model.FuzzConfig
import Verif.Props.TestSuite
/-
C102: the fuzz target of `interact`.
-/
namespace Verif
open Spec Server
variable {L : IpLib}

namespace Spec

/-- The first character of the (unquoted) local part is above the second. -/
def Falling (a : Email L) : Prop := ∃ x y r, a.localpartFn = some (x :: y :: r) ∧ y < x

/-- What the fuzz target's configuration lets pass, and what it answers. -/
structure FuzzRecord (trace : List (Ev L)) : Prop where
  sender : ∀ f f' d, .filterFrom f f' d ∈ trace → f' = f ∧
    (d = .accept ∧ (∀ a, f = some a → Falling a) ∨
      d = .reject ⟨⟨550⟩, b!"forbidden user"⟩ ∧ ∃ a, f = some a ∧ ¬ Falling a)
  recipient : ∀ t t' m m' d, .filterTo t t' m m' d ∈ trace → t' = t ∧ m' = m ∧
    (d = .accept ∧ Falling t ∨ d = .reject ⟨⟨550⟩, b!"forbidden user"⟩ ∧ ¬ Falling t)
  mail : ∀ m, .handleMail m ∈ trace → (∀ a, m.from_ = some a → Falling a) ∧ m.to ≠ [] ∧ ∀ t ∈ m.to, Falling t
  answer : ∀ pre post m d, trace = pre ++ .handleMail m :: .handled d :: post →
    d = if m.to.length ≤ 3 then .accept else .reject ⟨⟨550⟩, b!"Too many recipients!"⟩

end Spec

private theorem likes_iff (a : Email L) : fuzzLikes a = true ↔ Falling a := by
  unfold fuzzLikes Falling
  split
  · rename_i x y r h
    rw [h]
    simp only [decide_eq_true_eq, Option.some.injEq, List.cons.injEq]
    constructor
    · intro h; exact ⟨x, y, r, ⟨rfl, rfl, rfl⟩, h⟩
    · rintro ⟨_, _, _, ⟨rfl, rfl, rfl⟩, h⟩; exact h
  · rename_i h
    simp only [Bool.false_eq_true, false_iff]
    rintro ⟨x, y, r, h', _⟩
    exact h _ _ _ h'

private def fuzzVerdict (L : IpLib) : Verdict L Unit Unit := fun _ _ m _ _ =>
  (if m.to.length > 3 then .reject ⟨⟨550⟩, b!"Too many recipients!"⟩ else .accept, (), ())

private theorem fuzz_whole (s u : Unit) (m : MailMeta L) :
    WholeMessage ((fuzzConfig L).handleMail s u m) (fuzzVerdict L s u m) where
  reads h hh := by
    show fuzzHandle m h = .poll
    unfold fuzzHandle
    split
    · rename_i ho
      obtain ⟨r, h1, _⟩ := hh _ (List.mem_of_getLast? ho)
      simp at h1
    · rename_i ho
      obtain ⟨r, h1, h2⟩ := hh _ (List.mem_of_getLast? ho)
      simp at h1
      exact absurd h1.symm h2
    · rfl
  completes h _ := by
    show fuzzHandle m _ = .complete
    simp [fuzzHandle]
  returns h ok _ := by
    show fuzzHandle m _ = _
    simp [fuzzHandle, fuzzVerdict]

private theorem fuzz_sendable : SendableConfig (fuzzConfig L) := by
  have h1 : ∀ b ∈ b!"forbidden user", TextByte b := by decide +kernel
  have h2 : ∀ b ∈ b!"Too many recipients!", TextByte b := by decide +kernel
  apply c55_sendable
  · intro s b hb
    revert b
    show ∀ b ∈ b!"test.example.org", TextByte b
    decide +kernel
  · intro s u f r f' s' u' h
    simp only [fuzzRequired, Prod.mk.injEq] at h
    obtain ⟨h, _⟩ := h
    split at h
    · split at h
      · cases h
      · cases h; exact h1
    · cases h
  · intro s u f r m t' m' s' u' h
    simp only [fuzzRequired, Prod.mk.injEq] at h
    obtain ⟨h, _⟩ := h
    split at h
    · cases h
    · cases h; exact h1
  · intro s u m h r s' u' hh
    change fuzzHandle m h = _ at hh
    unfold fuzzHandle at hh
    split at hh
    · split at hh
      · cases hh; exact h2
      · cases hh
    · cases hh
    · cases hh

/-- C102. The fuzz target never panics and always comes to its end, on every input. -/
theorem c102_ends (data : List Bytes) :
    (∀ fuel p, (fuzzInteract L fuel data).1 ≠ .panic p) ∧
    ∃ n0 w, ∀ n, n0 ≤ n → fuzzInteract L n data = (.ok (), w) := by
  have hc : ∀ s u m, Conforming ((fuzzConfig L).handleMail s u m) := fun s u m => (fuzz_whole s u m).conforming
  refine ⟨fun fuel p => c50_no_panic _ fuzz_sendable hc fuel _ _ () () p, ?_⟩
  obtain ⟨n0, r, w, h1, _, _, h3⟩ := c53_ok_iff (fuzzConfig L) fuzz_sendable hc (data.map .pkt) ⟨[], []⟩ () ()
  obtain rfl := h3 (by simp)
  exact ⟨n0, w, h1⟩

/-- C102. Nor do the target's own calls of `localpart()` panic. -/
theorem c102_localpart (hL : IpLaws L) (fuel : Nat) (data : List Bytes) (a : Email L)
    (h : (∃ f' d, Ev.filterFrom (some a) f' d ∈ (fuzzInteract L fuel data).2.trace) ∨
      ∃ t' m m' d, Ev.filterTo a t' m m' d ∈ (fuzzInteract L fuel data).2.trace) : a.localpartFn ≠ none := by
  obtain ⟨_, c, h, _⟩ := c73_wellformed hL _ fuel _ _ () () a h
  rw [h]; simp

/-- The open transaction is one the filters let pass. -/
private def Open (m : Option (MailMeta L)) : Prop :=
  ∀ x, m = some x → (∀ a, x.from_ = some a → Falling a) ∧ ∀ t ∈ x.to, Falling t

/-- The record, with the decision about a message looked up in front of it. -/
private def GoodEv (pre : List (Ev L)) : Ev L → Prop
  | .filterFrom f f' d => f' = f ∧ (d = .accept ∧ (∀ a, f = some a → Falling a) ∨
      d = .reject ⟨⟨550⟩, b!"forbidden user"⟩ ∧ ∃ a, f = some a ∧ ¬ Falling a)
  | .filterTo t t' m m' d => t' = t ∧ m' = m ∧
      (d = .accept ∧ Falling t ∨ d = .reject ⟨⟨550⟩, b!"forbidden user"⟩ ∧ ¬ Falling t)
  | .handleMail m => (∀ a, m.from_ = some a → Falling a) ∧ m.to ≠ [] ∧ ∀ t ∈ m.to, Falling t
  | .handled d => ∃ pre' m, pre = pre' ++ [.handleMail m] ∧
      d = if m.to.length ≤ 3 then .accept else .reject ⟨⟨550⟩, b!"Too many recipients!"⟩
  | _ => True

private def Goods (pre : List (Ev L)) : List (Ev L) → Prop
  | [] => True
  | e :: r => GoodEv pre e ∧ Goods (pre ++ [e]) r

private theorem goods_append (pre a b : List (Ev L)) (h1 : Goods pre a) (h2 : Goods (pre ++ a) b) : Goods pre (a ++ b) := by
  induction a generalizing pre with
  | nil => simpa using h2
  | cons e a ih => exact ⟨h1.1, ih _ h1.2 (by simpa using h2)⟩

private theorem goods_split (pre a : List (Ev L)) (e : Ev L) (b : List (Ev L)) (h : Goods pre (a ++ e :: b)) : GoodEv (pre ++ a) e := by
  induction a generalizing pre with
  | nil => simpa using h.1
  | cons x a ih => have := ih _ h.2; simpa using this

private theorem exchange_good {cmd : Option (Command L)} {st st1 : SState L Unit Unit} {t evs b1}
    (h : Exchange (fuzzConfig L) (ByText (fuzzVerdict L)) cmd st t evs st1 b1) (hp : Open st.mail) (pre : List (Ev L)) :
    Open st1.mail ∧ Goods pre evs := by
  have none_ : Open (none : Option (MailMeta L)) := by intro x hx; cases hx
  cases h with
  | unrecognized | unimplemented _ | mailAgain | rcptEarly | dataEarly | dataNoRcpt => exact ⟨hp, trivial, trivial⟩
  | @mailAccepted _ _ _ f _ _ _ _ h =>
    simp only [Required.toConfig, fuzzRequired, Prod.mk.injEq] at h
    obtain ⟨h, rfl, _, _⟩ := h
    have hf : ∀ a, f = some a → Falling a := by
      rintro a rfl
      simp only at h
      split at h
      · rename_i hl; exact (likes_iff a).1 hl
      · cases h
    refine ⟨?_, trivial, ⟨rfl, .inl ⟨rfl, hf⟩⟩, trivial, trivial⟩
    rintro x hx
    cases hx
    exact ⟨hf, by simp⟩
  | @mailRefused _ _ _ f _ _ r _ _ h =>
    simp only [Required.toConfig, fuzzRequired, Prod.mk.injEq] at h
    obtain ⟨h, rfl, _, _⟩ := h
    refine ⟨none_, trivial, ⟨rfl, .inr ?_⟩, trivial, trivial⟩
    cases f with
    | none => cases h
    | some a =>
      simp only at h
      split at h
      · cases h
      · rename_i hl
        cases h
        exact ⟨rfl, a, rfl, fun h => hl ((likes_iff a).2 h)⟩
  | @rcptAccepted _ _ m _ t _ _ _ _ _ h =>
    simp only [Required.toConfig, fuzzRequired, Prod.mk.injEq] at h
    obtain ⟨h, rfl, rfl, _, _⟩ := h
    split at h
    · rename_i hl
      refine ⟨?_, ⟨rfl, rfl, .inl ⟨rfl, (likes_iff t).1 hl⟩⟩, trivial, trivial⟩
      intro x hx
      cases hx
      obtain ⟨h1, h2⟩ := hp _ rfl
      refine ⟨h1, fun y hy => ?_⟩
      rcases List.mem_append.1 hy with hy | hy
      · exact h2 y hy
      · simp at hy; subst hy; exact (likes_iff y).1 hl
    · cases h
  | @rcptRefused _ _ m _ t _ _ _ r _ _ h =>
    simp only [Required.toConfig, fuzzRequired, Prod.mk.injEq] at h
    obtain ⟨h, rfl, rfl, _, _⟩ := h
    split at h
    · cases h
    · rename_i hl
      cases h
      exact ⟨hp, ⟨rfl, rfl, .inr ⟨rfl, fun h => hl ((likes_iff t).2 h)⟩⟩, trivial, trivial⟩
  | dataRefused _ h => simp [Required.toConfig] at h
  | @dataHandled _ _ m _ m' _ _ d _ _ _ hto h hH =>
    simp only [Required.toConfig, Prod.mk.injEq] at h
    obtain ⟨_, rfl, _, _⟩ := h
    obtain ⟨h1, h2⟩ := hp _ rfl
    have hd : d = if m.to.length ≤ 3 then .accept else .reject ⟨⟨550⟩, b!"Too many recipients!"⟩ := by
      have : (fuzzVerdict L () () m [] true).1 = d := by
        rcases hH with ⟨ls, _, hv⟩ | ⟨ls, part, _, _, hv⟩ <;> exact congrArg Prod.fst hv
      rw [← this]
      unfold fuzzVerdict
      by_cases hx : m.to.length ≤ 3
      · rw [if_pos hx, if_neg (by omega)]
      · rw [if_neg hx, if_pos (by omega)]
    refine ⟨none_, trivial, trivial, ⟨h1, hto, h2⟩, ⟨_, m, rfl, hd⟩, trivial, trivial⟩

private theorem dialogue_good {st st' : SState L Unit Unit} {b evs b'}
    (h : Dialogue (fuzzConfig L) (ByText (fuzzVerdict L)) st b evs st' b') : ∀ pre, Open st.mail → Goods pre evs := by
  induction h with
  | nil => intro _ _; trivial
  | @cons st l t evs st1 b1 evs' st2 b2 hl hx _ ih =>
    intro pre hp
    obtain ⟨h1, h2⟩ := exchange_good hx hp (pre ++ [.line (l ++ crlf)])
    exact ⟨trivial, goods_append _ _ _ h2 (ih _ h1)⟩

/-- C102. When it ends, exactly the addresses with a falling local part have passed the filters, every message handled has
such a sender (or none) and such recipients, at least one, and was accepted if and only if it has at most three of them. -/
theorem c102_record (fuel : Nat) (data : List Bytes) (w : World L Unit Unit) (h : fuzzInteract L fuel data = (.ok (), w)) :
    FuzzRecord w.trace := by
  obtain ⟨evs, left, h1, h2, _⟩ := c42_reference _ _ fuzz_whole fuel _ _ () () w h
  have hg : Goods [] w.trace := by
    rw [h1]
    exact ⟨trivial, dialogue_good h2 _ (by intro x hx; cases hx)⟩
  have look : ∀ e, e ∈ w.trace → ∃ pre, GoodEv pre e := by
    intro e he
    obtain ⟨a, b, hab⟩ := List.append_of_mem he
    rw [hab] at hg
    exact ⟨_, goods_split _ _ _ _ hg⟩
  refine ⟨fun f f' d he => ?_, fun t t' m m' d he => ?_, fun m he => ?_, ?_⟩
  · obtain ⟨_, h⟩ := look _ he; exact h
  · obtain ⟨_, h⟩ := look _ he; exact h
  · obtain ⟨_, h⟩ := look _ he; exact h
  intro pre post m d he
  rw [he, show pre ++ .handleMail m :: .handled d :: post = (pre ++ [.handleMail m]) ++ .handled d :: post by simp] at hg
  obtain ⟨pre', m', e1, e2⟩ := goods_split _ _ _ _ hg
  obtain ⟨_, rfl⟩ : pre = pre' ∧ m = m' := by simpa using e1
  exact e2

/-- C102: a run in which everything occurs: a forbidden sender, a fine one, a forbidden recipient, three and then four fine ones. -/
example : (match fuzzInteract (Ip.stdIp 1) 40 [b!"MAIL FROM:<ab@h>\r\nMAIL FROM:<\"\\ba\"@h>\r\nRCPT TO:<ab@h>\r\nRCP",
      b!"T TO:<ba@h>\r\nRCPT TO:<ba@h>\r\nRCPT TO:<ba@h>\r\nDATA\r\n.\r\nMAIL FROM:<>\r\nRCPT TO:<ba@h>\r\nRCPT TO:<ba@h>\r\n",
      b!"RCPT TO:<ba@h>\r\nRCPT TO:<ba@h>\r\nDATA\r\nx\r\n.\r\n"] with
    | (.ok _, w) => (repliesOf w.trace).map (·.1.code)
    | _ => []) = [220, 550, 250, 550, 250, 250, 250, 354, 250, 250, 250, 250, 250, 250, 354, 550] := by decide +kernel

end Verif
