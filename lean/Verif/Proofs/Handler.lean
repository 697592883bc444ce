import Verif.Proofs.Server
/-
What a mail handler can do to the connection.
-/
namespace Verif
open Spec

/-- The bytes a `DataStream` has not given out yet. -/
def DStream.left (d : DStream) : Bytes := d.buf ++ d.source.bytes

@[simp] theorem DStream.left_new (s : Prep Bytes) : (DStream.new s).left = s.bytes := by
  simp [DStream.left, DStream.new]

theorem Prep.bytes_pending {s s' : Prep Bytes} (h : s.pollNext = (.pending, s')) : s.bytes = s'.bytes := by
  simp [Prep.bytes, (Prep.pollNext_pending h).1]
theorem Prep.bytes_none {s s' : Prep Bytes} (h : s.pollNext = (.ready none, s')) : s.bytes = [] ∧ s'.bytes = s.bytes := by
  obtain ⟨rfl, h1, _⟩ := Prep.pollNext_none h
  exact ⟨by simp [Prep.bytes, h1], rfl⟩
theorem Prep.bytes_some {s s' : Prep Bytes} {b} (h : s.pollNext = (.ready (some b), s')) :
    s.bytes = b ++ s'.bytes := by
  simp [Prep.bytes, (Prep.pollNext_some h).1]

theorem drop_suffix_append (n : Nat) (a b : Bytes) : a.drop n ++ b <:+ a ++ b := by
  obtain ⟨x, hx⟩ := List.drop_suffix n a
  exact ⟨x, by rw [← List.append_assoc, hx]⟩

/-- Polling, in whatever state, only takes bytes from the front. -/
theorem DStream.pollLoop_left (d : DStream) : d.pollLoop.2.left <:+ d.left := by
  fun_induction DStream.pollLoop d with
  | case1 d st hs hlen => simp only [DStream.left]; exact ⟨d.buf, by simp⟩
  | case2 d st hs hlen s hp => simp [DStream.left, Prep.bytes_pending hp]
  | case3 d st hs hlen s hp => simp [DStream.left, (Prep.bytes_none hp).2]
  | case4 d st hs hlen b s hp ih => simpa [DStream.left, Prep.bytes_some hp] using ih
  | case5 d st x hs res d' hlen => simpa [DStream.left, d'] using drop_suffix_append _ _ _
  | case6 d st x hs res d' hlen => simpa [DStream.left, d'] using drop_suffix_append _ _ _
  | case7 d st x hs hlen => simpa [DStream.left] using drop_suffix_append _ _ _
  | case8 d st x hs hlen ih => exact ih.trans (by simpa [DStream.left] using drop_suffix_append _ _ _)
  | case9 d st x hs hx => exact drop_suffix_append _ _ _
  | case10 d st x hs hx s hp => simp [DStream.left, Prep.bytes_pending hp]
  | case11 d st x hs hx s hp => simp [DStream.left, (Prep.bytes_none hp).2]
  | case12 d st x hs hx b s hp ih => simpa [DStream.left, Prep.bytes_some hp] using ih

theorem DStream.pollNext_left (d : DStream) : d.pollNext.2.left <:+ d.left := by
  unfold DStream.pollNext
  split
  · exact List.suffix_rfl
  · exact d.pollLoop_left

theorem DStream.complete_left {d d' : DStream} {ok : Bool} (h : d.complete = .ok (ok, d')) :
    d'.left <:+ d.left ∧ d'.source.bytes <:+ d.left := by
  unfold DStream.complete at h
  split at h
  · simp at h
    rw [← h.2]
    exact ⟨List.suffix_rfl, List.suffix_append _ _⟩
  · split at h
    · simp at h
    · split at h
      · split at h
        · rename_i s hs
          simp at h
          have : s.bytes = d.buf ++ d.source.bytes := by
            unfold Prep.prepend at hs
            split at hs
            · simp at hs
            · rename_i hp
              simp at hs hp
              subst hs
              simp [Prep.bytes, Prep.evs, hp]
          rw [← h.2]
          simp [DStream.left, this]
        · simp at h
      · rename_i hb
        simp at h hb
        rw [← h.2]
        simp [DStream.left]

namespace Server
variable {L : IpLib} {S U : Type}

theorem runHandler_left {act : List HObs → HAct S U} {n h d dec s u x}
    (hr : runHandler act n h d = .returned dec s u x) : x.left <:+ d.left := by
  induction n generalizing h d with
  | zero => simp [runHandler] at hr
  | succ n ih =>
    unfold runHandler at hr
    split at hr
    · simp at hr; rw [hr.2.2.2]; exact List.suffix_rfl
    · exact (ih hr).trans d.pollNext_left
    · split at hr
      · simp at hr
      · rename_i hc
        exact (ih hr).trans (DStream.complete_left hc).1

theorem handles_suffix {C : Config L S U} {fuel s u m b d s' u' b'}
    (h : Handles C fuel s u m b d s' u' b') : b' <:+ b := by
  obtain ⟨rd, x, h1, h2, _, h4⟩ := h
  have := runHandler_left h2
  rw [DStream.left_new, h1] at this
  rw [← h4]
  exact (List.suffix_append _ _).trans this

end Server

namespace Spec
variable {L : IpLib} {S U : Type}

theorem Exchange.suffix {C : Config L S U} {H : Handling L S U} {cmd st b evs st' b'}
    (hH : ∀ s u m b d s' u' b', H s u m b d s' u' b' → b' <:+ b)
    (h : Exchange C H cmd st b evs st' b') : b' <:+ b := by
  cases h <;> first | exact List.suffix_rfl | skip
  rename_i h1 h2 h3
  exact hH _ _ _ _ _ _ _ _ h3

/-- Number of lines read. -/
def lineCount (evs : List (Ev L)) : Nat := (evs.filter fun | .line _ => true | _ => false).length

theorem Exchange.noLine {C : Config L S U} {H : Handling L S U} {cmd st b evs st' b'}
    (h : Exchange C H cmd st b evs st' b') : lineCount evs = 0 := by
  cases h <;> rfl

theorem lineCount_append (a b : List (Ev L)) : lineCount (a ++ b) = lineCount a + lineCount b := by
  simp [lineCount]

theorem Dialogue.append {C : Config L S U} {H : Handling L S U} {st b evs st1 b1 evs' st2 b2}
    (h1 : Dialogue C H st b evs st1 b1) (h2 : Dialogue C H st1 b1 evs' st2 b2) :
    Dialogue C H st b (evs ++ evs') st2 b2 := by
  induction h1 with
  | nil => exact h2
  | cons a b c ih =>
    have := Dialogue.cons a b (ih h2)
    rwa [← List.append_assoc] at this

theorem Dialogue.mono {C : Config L S U} {H H' : Handling L S U} {st b evs st' b'}
    (h : Dialogue C H st b evs st' b')
    (hh : ∀ s u m b d s' u' b', H s u m b d s' u' b' → H' s u m b d s' u' b') :
    Dialogue C H' st b evs st' b' := by
  induction h with
  | nil => exact .nil
  | cons a b c ih => exact .cons a (b.mono hh) ih

theorem Dialogue.length {C : Config L S U} {H : Handling L S U} {st b evs st' b'}
    (hH : ∀ s u m b d s' u' b', H s u m b d s' u' b' → b' <:+ b)
    (h : Dialogue C H st b evs st' b') : 2 * lineCount evs + b'.length ≤ b.length := by
  induction h with
  | nil => simp [lineCount]
  | @cons st l t evs st1 b1 evs' st2 b2 h1 h2 h3 ih =>
    have := (h2.suffix hH).length_le
    have h4 := h2.noLine
    have h5 : lineCount (Ev.line (l ++ crlf) :: evs ++ evs') = 1 + lineCount evs + lineCount evs' := by
      rw [lineCount_append]
      simp [lineCount]; omega
    rw [h5, h4]
    simp; omega

end Spec

namespace Server
variable {L : IpLib} {S U : Type}

/-- The possible results of the loop, started in `w` with `n` rounds. -/
inductive LoopOut (C : Config L S U) (fuel n : Nat) (w : World L S U) : Res Unit → World L S U → Prop
  | ok {w' evs} : w'.trace = w.trace ++ evs →
      Dialogue C (Handles C fuel) w.st w.reader.bytes evs w'.st w'.reader.bytes →
      NoCrlf w'.reader.bytes → w'.writer.out = w.writer.out ++ outputOf evs →
      LoopOut C fuel n w (.ok ()) w'
  | rounds {w' evs} : w'.trace = w.trace ++ evs →
      Dialogue C (Handles C fuel) w.st w.reader.bytes evs w'.st w'.reader.bytes →
      lineCount evs = n → w'.writer.out = w.writer.out ++ outputOf evs →
      LoopOut C fuel n w .running w'
  | cut {r w' evs1 st1 l t evs e rest st' b' new} :
      w'.trace = w.trace ++ (evs1 ++ .line (l ++ crlf) :: evs) ++ errEv r →
      Dialogue C (Handles C fuel) w.st w.reader.bytes evs1 st1 (l ++ crlf ++ t) → NoCrlf l →
      Exchange C (Upto C fuel evs) (commandOn (l ++ crlf)) st1 t (evs ++ e :: rest) st' b' →
      w'.reader.bytes = b' →
      Cut C fuel t evs e r →
      w'.writer.out = w.writer.out ++ outputOf (evs1 ++ .line (l ++ crlf) :: evs) ++ new →
      (r = .err → ∀ rp, e = .reply rp → Sendable rp → new <+: wire rp) →
      LoopOut C fuel n w r w'

@[simp] theorem outputOf_line (l : Bytes) (b : List (Ev L)) : outputOf (.line l :: b) = outputOf b := by
  simp [outputOf]

theorem nextLine_cases (w : World L S U) :
    (NoCrlf w.reader.bytes ∧ ∃ rd, rd.bytes = w.reader.bytes ∧
      nextLine w = (.ok none, { w with reader := rd })) ∨
    (∃ l t rd, NoCrlf l ∧ w.reader.bytes = l ++ crlf ++ t ∧ rd.bytes = t ∧
      nextLine w = (.ok (some (l ++ crlf)), { w with reader := rd })) := by
  rcases nextCrlfLine_cases w.reader with ⟨h, s, h1, h2⟩ | ⟨l, t, s, h1, h2, h3, h4⟩
  · left; exact ⟨h, s, h2, by simp [nextLine, h1]⟩
  · right; exact ⟨l, t, s, h1, h2, h4, by simp [nextLine, h3]⟩

theorem loop_out (C : Config L S U) (fuel n : Nat) (w : World L S U) :
    LoopOut C fuel n w (loop C fuel n w).1 (loop C fuel n w).2 := by
  induction n generalizing w with
  | zero => exact .rounds (evs := []) (by simp [loop]) .nil rfl (by simp [loop])
  | succ n ih =>
    unfold loop
    rcases nextLine_cases w with ⟨h, rd, h1, h2⟩ | ⟨l, t, rd, h1, h2, h3, h4⟩
    · rw [SM.bind_ok h2]
      refine .ok (evs := []) (by simp) ?_ (by simpa [h1] using h) (by simp)
      simp only [SM.pure_eq, h1]
      exact .nil
    · rw [SM.bind_ok h4]
      simp only [emit_bind]
      have hl := handleLine_out C fuel (l ++ crlf) { w with reader := rd, trace := w.trace ++ [.line (l ++ crlf)] }
      generalize hg : handleLine C fuel (l ++ crlf)
        { w with reader := rd, trace := w.trace ++ [.line (l ++ crlf)] } = res at hl
      obtain ⟨r, w1⟩ := res
      cases hl with
      | ok k1 k2 k3 =>
        rename_i evs
        rw [SM.bind_ok hg]
        simp only [World.st, h3] at k1 k2 k3
        have hd : ∀ {evs' st2 b2}, Dialogue C (Handles C fuel) w1.st w1.reader.bytes evs' st2 b2 →
            Dialogue C (Handles C fuel) w.st w.reader.bytes (.line (l ++ crlf) :: evs ++ evs') st2 b2 := by
          intro evs' st2 b2 h
          rw [h2]
          exact .cons h1 k2 h
        have ih := ih w1
        cases hres : loop C fuel n w1 with
        | mk r2 w2 =>
        rw [hres] at ih
        dsimp only at ih ⊢
        cases ih with
        | ok j1 j2 j3 j4 =>
          exact .ok (by simp [j1, k1]) (hd j2) j3 (by simp [j4, k3])
        | rounds j1 j2 j3 j4 =>
          refine .rounds (by simp [j1, k1]) (hd j2) ?_ (by simp [j4, k3])
          have h5 : lineCount (.line (l ++ crlf) :: evs) = lineCount evs + 1 := by simp [lineCount]
          rw [lineCount_append, j3, h5, k2.noLine]
          omega
        | cut j1 j2 j3 j4 j8 j5 j6 j7 =>
          refine .cut (by simp [j1, k1]) (hd j2) j3 j4 j8 j5 (by simp [j6, k3]) j7
      | cut k1 k2 k6 k3 k4 k5 =>
        simp only [World.st, h3] at k1 k2 k3 k4
        have hcut : LoopOut C fuel (n + 1) w r w1 := by
          refine .cut (evs1 := []) (by simp [k1]) (h2 ▸ .nil) h1 k2 k6 k3 (by simp [k4]) k5
        cases r with
        | ok a => cases k3
        | err => rw [SM.bind_err hg]; exact hcut
        | panic p => rw [SM.bind_panic hg]; exact hcut
        | running => rw [SM.bind_running hg]; exact hcut

/-- The possible results of a session. -/
inductive SessOut (C : Config L S U) (fuel : Nat) (input : Bytes) (out0 : List Bytes) (s : S) (u : U) :
    Res Unit → World L S U → Prop
  | ok {w evs} : w.trace = .reply (C.welcomeBanner s) :: evs →
      Dialogue C (Handles C fuel) ⟨s, u, none⟩ input evs w.st w.reader.bytes →
      NoCrlf w.reader.bytes → w.writer.out = out0 ++ outputOf w.trace →
      SessOut C fuel input out0 s u (.ok ()) w
  | rounds {w evs} : w.trace = .reply (C.welcomeBanner s) :: evs →
      Dialogue C (Handles C fuel) ⟨s, u, none⟩ input evs w.st w.reader.bytes →
      lineCount evs = fuel → w.writer.out = out0 ++ outputOf w.trace →
      SessOut C fuel input out0 s u .running w
  | banner {r w new} : w.trace = errEv r → w.reader.bytes = input → Cut C fuel input [] (.reply (C.welcomeBanner s)) r →
      w.writer.out = out0 ++ new → (r = .err → Sendable (C.welcomeBanner s) → new <+: wire (C.welcomeBanner s)) →
      SessOut C fuel input out0 s u r w
  | cut {r w evs1 st1 l t evs e rest st' b' new} :
      w.trace = .reply (C.welcomeBanner s) :: (evs1 ++ .line (l ++ crlf) :: evs) ++ errEv r →
      Dialogue C (Handles C fuel) ⟨s, u, none⟩ input evs1 st1 (l ++ crlf ++ t) → NoCrlf l →
      Exchange C (Upto C fuel evs) (commandOn (l ++ crlf)) st1 t (evs ++ e :: rest) st' b' →
      w.reader.bytes = b' →
      Cut C fuel t evs e r →
      w.writer.out = out0 ++ outputOf (.reply (C.welcomeBanner s) :: (evs1 ++ .line (l ++ crlf) :: evs)) ++ new →
      (r = .err → ∀ rp, e = .reply rp → Sendable rp → new <+: wire rp) →
      SessOut C fuel input out0 s u r w

theorem start_bytes (incoming : List (SrcEv Bytes)) (outgoing : BSink) (s : S) (u : U) :
    (start incoming outgoing s u : World L S U).reader.bytes = evBytes incoming := rfl

theorem interact_out (C : Config L S U) (fuel : Nat) (incoming : List (SrcEv Bytes)) (outgoing : BSink)
    (s : S) (u : U) :
    SessOut C fuel (evBytes incoming) outgoing.out s u (interact C fuel incoming outgoing s u).1
      (interact C fuel incoming outgoing s u).2 := by
  unfold interact session
  simp only [sendCfg, SM.bind_assoc', SM.get_bind]
  rcases sendReply_cases (C.welcomeBanner (start (L := L) incoming outgoing s u).cfg) (start incoming outgoing s u)
    with ⟨wr, h1, h2, h3⟩ | ⟨wr, new, h1, h2, h3⟩ | ⟨wr, h1, h2⟩
  · rw [SM.bind_ok h2]
    have := loop_out C fuel fuel { start (L := L) incoming outgoing s u with
      writer := wr
      trace := (start (L := L) incoming outgoing s u).trace ++
        [.reply (C.welcomeBanner (start (L := L) incoming outgoing s u).cfg)] }
    generalize loop C fuel fuel _ = res at this
    obtain ⟨r, w⟩ := res
    simp only [start] at h3
    dsimp only [start] at this ⊢
    cases this with
    | ok j1 j2 j3 j4 =>
      exact .ok (by simpa [start] using j1) j2 j3 (by simp [j4, h3, j1, start])
    | rounds j1 j2 j3 j4 =>
      exact .rounds (by simpa [start] using j1) j2 j3 (by simp [j4, h3, j1, start])
    | cut j1 j2 j3 j4 j8 j5 j6 j7 =>
      exact .cut (by simpa [start] using j1) j2 j3 j4 j8 j5 (by simp [j6, h3]) j7
  · rw [SM.bind_err h1]
    exact .banner (by simp [errEv, start]) rfl .write (by simpa [start] using h2) (by simpa [start] using h3)
  · rw [SM.bind_panic h2]
    obtain ⟨new, hn⟩ := sendReply_out (C.welcomeBanner (start (L := L) incoming outgoing s u).cfg)
      (start (L := L) incoming outgoing s u)
    rw [h2] at hn
    exact .banner (by simp [errEv, start]) rfl (.text h1) (by simpa [start] using hn) (by simp)

end Server
end Verif
