import Verif.Proofs.HandlerRuns
/-
History properties of sessions: whatever happened in a session is the beginning of a dialogue.
-/
namespace Verif
open Spec
namespace Server
variable {L : IpLib} {S U : Type}

/-- Any treatment of messages. -/
def AnyHandling : Handling L S U := fun _ _ _ _ _ _ _ _ => True

/-- The events a session may stop in front of. -/
def Ev.stop : Ev L → Prop
  | .reply _ => True
  | .handled _ => True
  | _ => False

theorem Cut.stop {C : Config L S U} {fuel b evs e r} (h : Cut C fuel b evs e r) : Ev.stop e := by
  cases h <;> trivial

theorem Cut.not_ok {C : Config L S U} {fuel b evs e} {r : Res Unit} (h : Cut C fuel b evs e r) (a) : r ≠ .ok a := by
  cases h <;> simp

theorem trace_shape (C : Config L S U) (fuel : Nat) (incoming : List (SrcEv Bytes)) (outgoing : BSink)
    (s : S) (u : U) {r w} (h : interact C fuel incoming outgoing s u = (r, w)) :
    (w.trace = errEv r ∧ r ≠ .ok ()) ∨
    ∃ evs rest st b, w.trace = .reply (C.welcomeBanner s) :: evs ++ errEv r ∧
      Dialogue C AnyHandling ⟨s, u, none⟩ (evBytes incoming) (evs ++ rest) st b ∧
      (r = .ok () → rest = []) ∧ ∀ e, rest.head? = some e → Ev.stop e := by
  have := interact_out C fuel incoming outgoing s u
  rw [h] at this
  dsimp only at this
  have any : ∀ H : Handling L S U, ∀ s u m b d s' u' b', H s u m b d s' u' b' →
      (AnyHandling : Handling L S U) s u m b d s' u' b' := fun _ _ _ _ _ _ _ _ _ _ => trivial
  cases this with
  | @ok _ evs j1 j2 j3 j4 =>
    right
    refine ⟨evs, [], w.st, w.reader.bytes, by simp only [j1, errEv, List.append_nil], ?_, by simp, by simp⟩
    rw [List.append_nil]
    exact j2.mono (any _)
  | @rounds _ evs j1 j2 j3 j4 =>
    right
    refine ⟨evs, [], w.st, w.reader.bytes, by simp only [j1, errEv, List.append_nil], ?_, by simp, by simp⟩
    rw [List.append_nil]
    exact j2.mono (any _)
  | banner j1 _ j2 j3 j4 =>
    left
    refine ⟨j1, ?_⟩
    exact j2.not_ok ()
  | @cut _ _ evs1 st1 l t evs e rest st' b' new j1 j2 j3 j4 j8 j5 j6 j7 =>
    right
    refine ⟨evs1 ++ .line (l ++ crlf) :: evs, e :: rest, st', b', j1, ?_, ?_, ?_⟩
    · have := (j2.mono (any _)).append (.cons j3 (j4.mono (any _)) .nil)
      simpa using this
    · intro hr
      exact absurd hr (j5.not_ok ())
    · intro e' he
      simp at he
      subst he
      exact j5.stop

/-- Proof principle for history properties of dialogues. -/
theorem _root_.Verif.Spec.Dialogue.hist {C : Config L S U} {H : Handling L S U} {Good : List (Ev L) → Ev L → Prop}
    {Inv : List (Ev L) → SState L S U → Prop}
    (line : ∀ pre st l, Inv pre st → Good pre (.line l) ∧ Inv (pre ++ [.line l]) st)
    (ex : ∀ pre cmd st b evs st' b', Inv pre st → Exchange C H cmd st b evs st' b' →
      (∀ x e y, evs = x ++ e :: y → Good (pre ++ x) e) ∧ Inv (pre ++ evs) st')
    {pre st b evs st' b'} (h : Dialogue C H st b evs st' b') (hi : Inv pre st) :
    (∀ x e y, evs = x ++ e :: y → Good (pre ++ x) e) ∧ Inv (pre ++ evs) st' := by
  induction h generalizing pre with
  | nil => simpa using hi
  | @cons st l t evs st1 b1 evs' st2 b2 h1 h2 h3 ih =>
    obtain ⟨l1, l2⟩ := line pre st (l ++ crlf) hi
    obtain ⟨e1, e2⟩ := ex _ _ _ _ _ _ _ l2 h2
    obtain ⟨i1, i2⟩ := ih e2
    constructor
    · intro x e y hxy
      rcases x with _ | ⟨x0, x⟩
      · simp at hxy
        rw [← hxy.1]
        simpa using l1
      · simp at hxy
        obtain ⟨rfl, hxy⟩ := hxy
        rcases List.append_eq_append_iff.1 hxy with ⟨a, rfl, ha⟩ | ⟨a, rfl, ha⟩
        · have := i1 a e y (by rw [ha])
          simpa using this
        · rcases a with _ | ⟨a0, a⟩
          · simp at ha
            have := i1 [] e y (by rw [← ha]; rfl)
            simpa using this
          · simp at ha
            obtain ⟨rfl, rfl⟩ := ha
            have := e1 x e a rfl
            simpa using this
    · simpa using i2

theorem interact_eta (C : Config L S U) (fuel : Nat) (incoming : List (SrcEv Bytes)) (outgoing : BSink)
    (s : S) (u : U) : interact C fuel incoming outgoing s u =
      ((interact C fuel incoming outgoing s u).1, (interact C fuel incoming outgoing s u).2) := rfl

/-- The same for sessions. -/
theorem session_hist (C : Config L S U) (fuel : Nat) (incoming : List (SrcEv Bytes)) (outgoing : BSink)
    (s : S) (u : U) {r w} (h : interact C fuel incoming outgoing s u = (r, w))
    {Good : List (Ev L) → Ev L → Prop} {Inv : List (Ev L) → SState L S U → Prop}
    (start : Good [] (.reply (C.welcomeBanner s)) ∧ Inv [.reply (C.welcomeBanner s)] ⟨s, u, none⟩)
    (error : ∀ pre, Good pre .writeError)
    (line : ∀ pre st l, Inv pre st → Good pre (.line l) ∧ Inv (pre ++ [.line l]) st)
    (ex : ∀ pre cmd st b evs st' b', Inv pre st → Exchange C AnyHandling cmd st b evs st' b' →
      (∀ x e y, evs = x ++ e :: y → Good (pre ++ x) e) ∧ Inv (pre ++ evs) st') :
    ∀ pre e post, w.trace = pre ++ e :: post → Good pre e := by
  intro pre e post ht
  have herr : ∀ y, errEv r = y ++ e :: post → Good pre e := by
    intro y hy
    have : e = .writeError := by
      cases r <;> simp [errEv] at hy
      rcases y with _ | ⟨_, _⟩ <;> simp at hy
      exact hy.1.symm
    rw [this]
    exact error _
  rcases trace_shape C fuel incoming outgoing s u h with ⟨h1, _⟩ | ⟨evs, rest, st, b, h1, h2, _, _⟩
  · rw [h1] at ht
    exact herr _ ht
  · have := h2.hist line ex start.2
    rw [h1] at ht
    rcases pre with _ | ⟨p0, pre⟩
    · simp at ht
      rw [← ht.1]
      exact start.1
    · simp at ht
      obtain ⟨rfl, ht⟩ := ht
      rcases List.append_eq_append_iff.1 ht with ⟨a, rfl, ha⟩ | ⟨a, rfl, ha⟩
      · exact herr a ha
      · rcases a with _ | ⟨a0, a⟩
        · simp at ha
          exact herr [] (by simpa using ha.symm)
        · simp at ha
          obtain ⟨rfl, rfl⟩ := ha
          exact this.1 pre e (a ++ rest) (by simp)

end Server
end Verif
