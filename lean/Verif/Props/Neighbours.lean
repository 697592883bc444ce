import Verif.Props.SessionEnd
/-
C71: every event of a session is followed by what it calls for.
-/
namespace Verif
open Spec Server
variable {L : IpLib} {S U : Type}

private def Chained {α : Type} (R : α → α → Prop) : List α → Prop
  | [] => True
  | [_] => True
  | a :: b :: l => R a b ∧ Chained R (b :: l)

private theorem chained_append {α : Type} {R : α → α → Prop} {a b : List α} (ha : Chained R a) (hb : Chained R b)
    (hab : ∀ x y, a.getLast? = some x → b.head? = some y → R x y) : Chained R (a ++ b) := by
  induction a with
  | nil => exact hb
  | cons x a ih =>
    cases a with
    | nil =>
      cases b with
      | nil => trivial
      | cons y b => exact ⟨hab x y rfl rfl, hb⟩
    | cons x' a => exact ⟨ha.1, ih ha.2 (fun y z hy hz => hab y z (by simpa using hy) hz)⟩

private theorem chained_left {α : Type} {R : α → α → Prop} {a b : List α} (h : Chained R (a ++ b)) : Chained R a := by
  induction a with
  | nil => trivial
  | cons x a ih =>
    cases a with
    | nil => trivial
    | cons x' a => exact ⟨h.1, ih h.2⟩

private theorem chained_at {α : Type} {R : α → α → Prop} {x y : List α} {a b : α} (h : Chained R (x ++ a :: b :: y)) :
    R a b := by
  induction x with
  | nil => exact h.1
  | cons c x ih =>
    cases x with
    | nil => exact ih h.2
    | cons c' x => exact ih h.2

private theorem exchange_chained {C : Config L S U} {H : Handling L S U} {l st b evs st' b'}
    (h : Exchange C H (commandOn l) st b evs st' b') :
    Chained (Follows C) (.line l :: evs) ∧ ∃ r, evs.getLast? = some (.reply r) := by
  generalize hc : (commandOn l : Option (Command L)) = c at h
  cases h with
  | unrecognized => exact ⟨⟨.unrecognized hc, trivial⟩, _, rfl⟩
  | unimplemented h => exact ⟨⟨.unimplemented hc h, trivial⟩, _, rfl⟩
  | mailAgain => exact ⟨⟨.mailAgain hc, trivial⟩, _, rfl⟩
  | mailAccepted _ => exact ⟨⟨.mail hc, .sender, .senderReply (d := .accept), trivial⟩, _, rfl⟩
  | @mailRefused _ _ _ _ _ _ r s' _ _ =>
    exact ⟨⟨.mail hc, .sender, .senderReply (d := .reject r) (s := s'), trivial⟩, _, rfl⟩
  | rcptEarly => exact ⟨⟨.rcptEarly hc, trivial⟩, _, rfl⟩
  | rcptAccepted _ => exact ⟨⟨.rcpt hc, .rcptReply (d := .accept), trivial⟩, _, rfl⟩
  | @rcptRefused _ _ _ _ _ _ _ _ r s' _ _ =>
    exact ⟨⟨.rcpt hc, .rcptReply (d := .reject r) (s := s'), trivial⟩, _, rfl⟩
  | dataEarly => exact ⟨⟨.dataEarly hc, trivial⟩, _, rfl⟩
  | dataNoRcpt => exact ⟨⟨.dataNoRcpt hc, trivial⟩, _, rfl⟩
  | @dataRefused _ _ _ _ _ r s' _ hne _ =>
    exact ⟨⟨.data hc hne, .dataReply (d := .reject r) (s := s'), trivial⟩, _, rfl⟩
  | @dataHandled _ _ _ _ _ _ _ d _ _ _ hne _ _ =>
    exact ⟨⟨.data hc hne, .dataReply (d := .accept), .handle, .handled, .handledReply, trivial⟩, _, rfl⟩

private theorem dialogue_chained {C : Config L S U} {H : Handling L S U} {st b evs st' b'}
    (h : Dialogue C H st b evs st' b') :
    Chained (Follows C) evs ∧ ∀ e, evs.head? = some e → ∃ l, e = .line l := by
  induction h with
  | nil => exact ⟨trivial, by simp⟩
  | @cons st l t evs st1 b1 evs' st2 b2 h1 h2 h3 ih =>
    obtain ⟨k1, r, k2⟩ := exchange_chained h2
    refine ⟨chained_append k1 ih.1 ?_, by simp⟩
    intro x y hx hy
    obtain ⟨l', rfl⟩ := ih.2 y hy
    have : x = .reply r := by
      rw [List.getLast?_cons, k2] at hx
      simpa using hx.symm
    rw [this]
    exact .nextLine

private theorem split_at {C : Config L S U} {P : List (Ev L)} {e : Ev L} {rest : List (Ev L)} {r : Res Unit}
    (h : Chained (Follows C) (P ++ e :: rest)) (he : r = .err → ∃ rp, e = .reply rp)
    {pre post e1 e2} (ht : P ++ errEv r = pre ++ e1 :: e2 :: post) :
    Follows C e1 e2 ∨ (e2 = .writeError ∧ post = [] ∧ r = .err ∧ ∃ rp, Follows C e1 (.reply rp)) := by
  cases hr : r with
  | err =>
    obtain ⟨rp, rfl⟩ := he hr
    subst hr
    simp only [errEv] at ht
    rcases List.eq_nil_or_concat post with rfl | ⟨post', x, rfl⟩
    · have : P ++ [Ev.writeError] = (pre ++ [e1]) ++ [e2] := by simp [ht]
      obtain ⟨rfl, h2⟩ := List.append_inj' this rfl
      simp at h2
      right
      refine ⟨h2.symm, rfl, rfl, rp, ?_⟩
      rw [List.append_assoc] at h
      exact chained_at h
    · have : P ++ [Ev.writeError] = (pre ++ e1 :: e2 :: post') ++ [x] := by simp [ht]
      obtain ⟨rfl, h2⟩ := List.append_inj' this rfl
      left
      exact chained_at (chained_left h)
  | _ =>
    subst hr
    simp only [errEv, List.append_nil] at ht
    subst ht
    exact .inl (chained_at (chained_left h))

private theorem banner_chained {C : Config L S U} {s : S} {evs : List (Ev L)} (h : Chained (Follows C) evs)
    (h' : ∀ e, evs.head? = some e → ∃ l, e = .line l) : Chained (Follows C) (.reply (C.welcomeBanner s) :: evs) := by
  cases evs with
  | nil => trivial
  | cons e evs =>
    obtain ⟨l, rfl⟩ := h' e rfl
    exact ⟨.nextLine, h⟩

/-- C71. Of any two neighbouring events of a session, the second is one the first calls for, or the failure of the
write it calls for (and then the session is over). -/
theorem c71_neighbours (C : Config L S U) (fuel : Nat) (incoming : List (SrcEv Bytes)) (outgoing : BSink)
    (s : S) (u : U) (pre post : List (Ev L)) (e1 e2 : Ev L)
    (ht : (interact C fuel incoming outgoing s u).2.trace = pre ++ e1 :: e2 :: post) :
    Follows C e1 e2 ∨
      (e2 = .writeError ∧ post = [] ∧ (interact C fuel incoming outgoing s u).1 = .err ∧
        ∃ r, Follows C e1 (.reply r)) := by
  have any : ∀ H : Handling L S U, ∀ s u m b d s' u' b', H s u m b d s' u' b' →
      (AnyHandling : Handling L S U) s u m b d s' u' b' := fun _ _ _ _ _ _ _ _ _ _ => trivial
  have hout := interact_out C fuel incoming outgoing s u
  generalize interact C fuel incoming outgoing s u = x at hout ht
  obtain ⟨r, w⟩ := x
  dsimp only at hout ht ⊢
  cases hout with
  | @ok _ evs j1 j2 j3 j4 =>
    obtain ⟨k1, k2⟩ := dialogue_chained j2
    have := banner_chained (s := s) k1 k2
    rw [← j1, ht] at this
    exact .inl (chained_at this)
  | @rounds _ evs j1 j2 j3 j4 =>
    obtain ⟨k1, k2⟩ := dialogue_chained j2
    have := banner_chained (s := s) k1 k2
    rw [← j1, ht] at this
    exact .inl (chained_at this)
  | banner j1 _ j2 j3 j4 =>
    have := congrArg List.length (j1.symm.trans ht)
    have h1 : (errEv r : List (Ev L)).length ≤ 1 := by cases r <;> simp [errEv]
    simp at this
    omega
  | @cut _ _ evs1 st1 l t evs e rest st' b' new j1 j2 j3 j4 j8 j5 j6 j7 =>
    have hd := (j2.mono (any _)).append (.cons j3 (j4.mono (any _)) .nil)
    obtain ⟨k1, k2⟩ := dialogue_chained hd
    have hb := banner_chained (s := s) k1 k2
    refine split_at (P := .reply (C.welcomeBanner s) :: (evs1 ++ .line (l ++ crlf) :: evs)) (e := e) (rest := rest)
      (by simpa using hb) ?_ (j1.symm.trans ht)
    intro hr
    subst hr
    cases j5
    exact ⟨_, rfl⟩

end Verif
