import Verif.Props.SessionEnd
import Verif.Props.Ip
/-
C73: the addresses handed to the filters are those of the client's own command, and well-formed.
-/
namespace Verif
open Spec Server
variable {L : IpLib} {S U : Type}

/-- Every filter call follows the line it is about. -/
private def Linked (evs : List (Ev L)) : Prop :=
  ∀ x e y, evs = x ++ e :: y →
    (∀ f f' d, e = .filterFrom f f' d → ∃ x' l p, x = x' ++ [.line l, .newMail] ∧ commandOn l = some (.mail f p)) ∧
    (∀ t t' m m' d, e = .filterTo t t' m m' d → ∃ x' l p, x = x' ++ [.line l] ∧ commandOn l = some (.rcpt t p))

private theorem linked_append {a b : List (Ev L)} (ha : Linked a) (hb : Linked b) : Linked (a ++ b) := by
  intro x e y hxy
  rcases List.append_eq_append_iff.1 hxy with ⟨c, rfl, hc⟩ | ⟨c, rfl, hc⟩
  · obtain ⟨h1, h2⟩ := hb c e y hc
    constructor
    · intro f f' d he
      obtain ⟨x', l, p, rfl, h⟩ := h1 f f' d he
      exact ⟨a ++ x', l, p, by simp, h⟩
    · intro t t' m m' d he
      obtain ⟨x', l, p, rfl, h⟩ := h2 t t' m m' d he
      exact ⟨a ++ x', l, p, by simp, h⟩
  · rcases c with _ | ⟨c0, c⟩
    · simp at hc
      have := hb [] e y (by simpa using hc.symm)
      constructor
      · intro f f' d he
        obtain ⟨x', l, p, h, _⟩ := this.1 f f' d he
        simp at h
      · intro t t' m m' d he
        obtain ⟨x', l, p, h, _⟩ := this.2 t t' m m' d he
        simp at h
    · simp at hc
      obtain ⟨rfl, rfl⟩ := hc
      exact ha x e c rfl

private theorem linked_left {a b : List (Ev L)} (h : Linked (a ++ b)) : Linked a := by
  intro x e y hxy
  exact h x e (y ++ b) (by rw [hxy]; simp)

private theorem linked_free {a : List (Ev L)} (h1 : ∀ f f' d, Ev.filterFrom f f' d ∉ a)
    (h2 : ∀ t t' m m' d, Ev.filterTo t t' m m' d ∉ a) : Linked a := by
  intro x e y hxy
  constructor
  · rintro f f' d rfl
    exact absurd (by rw [hxy]; simp) (h1 f f' d)
  · rintro t t' m m' d rfl
    exact absurd (by rw [hxy]; simp) (h2 t t' m m' d)

private theorem exchange_linked {C : Config L S U} {H : Handling L S U} {l st b evs st' b'}
    (h : Exchange C H (commandOn l) st b evs st' b') : Linked (.line l :: evs) := by
  generalize hc : (commandOn l : Option (Command L)) = c at h
  have from_ : ∀ {f f' d r p}, (commandOn l : Option (Command L)) = some (.mail f p) →
      Linked ([.line l, .newMail, .filterFrom f f' d, .reply r] : List (Ev L)) := by
    intro f f' d r p hc x e y hxy
    constructor
    · rintro f1 f1' d1 rfl
      simp [List.cons_eq_append_iff] at hxy
      obtain ⟨_, rfl, _, rfl, rfl, ⟨rfl, rfl, rfl⟩, _⟩ := hxy
      exact ⟨[], l, p, rfl, hc⟩
    · rintro t t' m m' d1 rfl
      have := congrArg (Ev.filterTo t t' m m' d1 ∈ ·) hxy
      simp at this
  have to_ : ∀ {t t' m m' d r p}, (commandOn l : Option (Command L)) = some (.rcpt t p) →
      Linked ([.line l, .filterTo t t' m m' d, .reply r] : List (Ev L)) := by
    intro t t' m m' d r p hc x e y hxy
    constructor
    · rintro f1 f1' d1 rfl
      have := congrArg (Ev.filterFrom f1 f1' d1 ∈ ·) hxy
      simp at this
    · rintro t1 t1' m1 m1' d1 rfl
      simp [List.cons_eq_append_iff] at hxy
      obtain ⟨_, rfl, rfl, ⟨rfl, rfl, rfl, rfl, rfl⟩, _⟩ := hxy
      exact ⟨[], l, p, rfl, hc⟩
  cases h with
  | mailAccepted _ => exact from_ hc
  | mailRefused _ => exact from_ hc
  | rcptAccepted _ => exact to_ hc
  | rcptRefused _ => exact to_ hc
  | _ => exact linked_free (by simp) (by simp)

private theorem dialogue_linked {C : Config L S U} {H : Handling L S U} {st b evs st' b'}
    (h : Dialogue C H st b evs st' b') : Linked evs := by
  induction h with
  | nil => exact linked_free (by simp) (by simp)
  | cons _ h2 _ ih => exact linked_append (exchange_linked h2) ih

private theorem trace_linked (C : Config L S U) (fuel : Nat) (incoming : List (SrcEv Bytes)) (outgoing : BSink)
    (s : S) (u : U) : Linked (interact C fuel incoming outgoing s u).2.trace := by
  have err : ∀ r : Res Unit, Linked (errEv r : List (Ev L)) := by
    intro r
    cases r <;> exact linked_free (by simp [errEv]) (by simp [errEv])
  rcases trace_shape C fuel incoming outgoing s u (interact_eta ..) with ⟨h, _⟩ | ⟨evs, rest, st, b, h, hd, _⟩
  · rw [h]; exact err _
  · rw [h]
    refine linked_append ?_ (err _)
    exact linked_append (a := [_]) (linked_free (by simp) (by simp)) (linked_left (dialogue_linked hd))

/-- C73. The sender handed to `filter_from` is that of the MAIL command on the last line received, and nothing but
`new_mail` was called since. -/
theorem c73_sender (C : Config L S U) (fuel : Nat) (incoming : List (SrcEv Bytes)) (outgoing : BSink)
    (s : S) (u : U) (pre post : List (Ev L)) (f f' : Option (Email L)) (d : Decision)
    (ht : (interact C fuel incoming outgoing s u).2.trace = pre ++ .filterFrom f f' d :: post) :
    ∃ pre' l p, pre = pre' ++ [.line l, .newMail] ∧ commandOn l = some (.mail f p) :=
  (trace_linked C fuel incoming outgoing s u pre _ post ht).1 f f' d rfl

/-- C73. The recipient handed to `filter_to` is that of the RCPT command on the last line received. -/
theorem c73_recipient (C : Config L S U) (fuel : Nat) (incoming : List (SrcEv Bytes)) (outgoing : BSink)
    (s : S) (u : U) (pre post : List (Ev L)) (t t' : Email L) (m m' : MailMeta L) (d : Decision)
    (ht : (interact C fuel incoming outgoing s u).2.trace = pre ++ .filterTo t t' m m' d :: post) :
    ∃ pre' l p, pre = pre' ++ [.line l] ∧ commandOn l = some (.rcpt t p) :=
  (trace_linked C fuel incoming outgoing s u pre _ post ht).2 t t' m m' d rfl

private theorem parse_of {l : Bytes} {c : Command L} (h : commandOn l = some c) : Command.parse l = .ok c := by
  unfold commandOn at h
  generalize Command.parse l = x at h
  cases x with
  | error e => cases h
  | ok x => cases h; rfl

/-- C73. Hence every address a filter sees is well-formed, and `localpart()` of it does not panic. -/
theorem c73_wellformed (hL : IpLaws L) (C : Config L S U) (fuel : Nat) (incoming : List (SrcEv Bytes)) (outgoing : BSink)
    (s : S) (u : U) (a : Email L)
    (h : (∃ f' d, Ev.filterFrom (some a) f' d ∈ (interact C fuel incoming outgoing s u).2.trace) ∨
      (∃ t' m m' d, Ev.filterTo a t' m m' d ∈ (interact C fuel incoming outgoing s u).2.trace)) :
    WFEmail a ∧ ∃ content, a.localpartFn = some content ∧ IsLocal a.localpart content := by
  rcases h with ⟨f', d, h⟩ | ⟨t', m, m', d, h⟩
  · obtain ⟨pre, post, h⟩ := List.append_of_mem h
    obtain ⟨_, l, p, _, hc⟩ := c73_sender C fuel incoming outgoing s u pre post _ _ _ h
    exact ⟨(c28_wellformed hL _ _ (parse_of hc)).1 a rfl, c38_command hL l a p (.inl (parse_of hc))⟩
  · obtain ⟨pre, post, h⟩ := List.append_of_mem h
    obtain ⟨_, l, p, _, hc⟩ := c73_recipient C fuel incoming outgoing s u pre post _ _ _ _ _ h
    exact ⟨(c28_wellformed hL _ _ (parse_of hc)).1, c38_command hL l a p (.inr (parse_of hc))⟩

end Verif
