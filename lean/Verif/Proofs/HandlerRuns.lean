import Verif.Proofs.Handler
/-
Runs of mail handlers on the `DataStream` of a connection.
-/
namespace Verif
open Spec

theorem Spec.textOf_append (a b : List HObs) : textOf (a ++ b) = textOf a ++ textOf b := by
  induction a with
  | nil => rfl
  | cons o a ih =>
    match o with
    | .polled (.ready (some c)) => simp [textOf, ih]
    | .polled (.ready none) => simp [textOf, ih]
    | .polled .pending => simp [textOf, ih]
    | .completed _ => simp [textOf, ih]

namespace Server
variable {L : IpLib} {S U : Type}

theorem runHandler_mono {act : List HObs → HAct S U} {n h d}
    (hr : runHandler act n h d ≠ .running) (m : Nat) (hm : n ≤ m) :
    runHandler act m h d = runHandler act n h d := by
  induction n generalizing m h d with
  | zero => simp [runHandler] at hr
  | succ n ih =>
    obtain ⟨m, rfl⟩ : ∃ k, m = k + 1 := ⟨m - 1, by omega⟩
    unfold runHandler at hr ⊢
    split at hr
    · rfl
    · exact ih hr m (by omega)
    · split at hr
      · rfl
      · exact ih hr m (by omega)

theorem _root_.Verif.Spec.Reading.snoc {h : List HObs} {r} (hh : Reading h) (hr : r ≠ .ready none) :
    Reading (h ++ [.polled r]) := by
  intro o ho
  rcases List.mem_append.1 ho with ho | ho
  · exact hh o ho
  · simp at ho; exact ⟨r, ho, hr⟩

/-- A handler that reads to the end gets there, with the text of the stream. -/
theorem reads_to_end {act : List HObs → HAct S U} (hp : ∀ h, Reading h → act h = .poll) (d : DStream)
    (h : List HObs) (hh : Reading h) :
    ∃ k h', Reading h' ∧ textOf h' = textOf h ++ d.readAll.1.flatten ∧
      ∀ n, runHandler act (n + k) h d = runHandler act n (h' ++ [.polled (.ready none)]) d.readAll.2 := by
  have step : ∀ n, runHandler act (n + 1) h d =
      runHandler act n (h ++ [.polled d.pollNext.1]) d.pollNext.2 := by
    intro n
    conv => lhs; unfold runHandler
    rw [hp h hh]
  fun_induction DStream.readAll d generalizing h with
  | case1 d d' he =>
    refine ⟨1, h, hh, by simp, ?_⟩
    intro n
    rw [step, he]
  | case2 d o d' he ih =>
    have hh' : Reading (h ++ [.polled (.ready (some o))]) := hh.snoc (by simp)
    obtain ⟨k, h', h1, h2, h3⟩ := ih _ hh' (by
      intro n; conv => lhs; unfold runHandler
      rw [hp _ hh'])
    refine ⟨k + 1, h', h1, by rw [h2, textOf_append]; simp [textOf], ?_⟩
    intro n
    rw [← Nat.add_assoc, step, he]
    exact h3 n
  | case3 d d' he ih =>
    have hh' : Reading (h ++ [.polled .pending]) := hh.snoc (by simp)
    obtain ⟨k, h', h1, h2, h3⟩ := ih _ hh' (by
      intro n; conv => lhs; unfold runHandler
      rw [hp _ hh'])
    refine ⟨k + 1, h', h1, by rw [h2, textOf_append]; simp [textOf], ?_⟩
    intro n
    rw [← Nat.add_assoc, step, he]
    exact h3 n

theorem new_complete (s : Prep Bytes) :
    ∃ ok d, (DStream.new s).readAll.2.complete = .ok (ok, d) ∧ d.wasCompleted = true ∧
      ((∃ ls, IsMessage s.bytes ls d.source.bytes ∧ ok = true ∧
          (DStream.new s).readAll.1.flatten = decodedLines ls) ∨
       (∃ ls part, IsUnfinished s.bytes ls part ∧ d.source.bytes = [] ∧ ok = false ∧
          (DStream.new s).readAll.1.flatten = decodedLines ls ++ decodedPart part)) := by
  rcases message_or_unfinished s.bytes with ⟨ls, rest, h⟩ | ⟨ls, part, h⟩
  · obtain ⟨d, h1, h2, h3, h4⟩ := message_result s (decode_message h)
    exact ⟨true, d, h1, h4, .inl ⟨ls, h3 ▸ h, rfl, h2⟩⟩
  · obtain ⟨d, h1, h2, h3, h4⟩ := unfinished_result s (decode_unfinished h)
    exact ⟨false, d, h1, h4, .inr ⟨ls, part, h, h3, rfl, h2⟩⟩

/-- The run of a conforming handler. -/
theorem conforming_run {act : List HObs → HAct S U} (hc : Conforming act) (rd : Prep Bytes) :
    ∃ k d s u x, (∀ n, runHandler act (n + k) [] (DStream.new rd) = .returned d s u x) ∧ x.wasCompleted = true := by
  obtain ⟨k, h, h1, _, h3⟩ := reads_to_end hc.reads (DStream.new rd) [] (by simp [Reading])
  obtain ⟨ok, x, h4, h5, _⟩ := new_complete rd
  obtain ⟨d, s, u, h6⟩ := hc.returns h ok h1
  refine ⟨k + 2, d, s, u, x, ?_, h5⟩
  intro n
  have := h3 (n + 2)
  rw [show n + (k + 2) = n + 2 + k by omega, this]
  unfold runHandler
  rw [hc.completes h h1]
  simp only [h4]
  unfold runHandler
  rw [h6]

theorem _root_.Verif.Spec.WholeMessage.conforming {act : List HObs → HAct S U} {v} (h : WholeMessage act v) :
    Conforming act :=
  ⟨h.reads, h.completes, fun x ok hx => ⟨_, _, _, h.returns x ok hx⟩⟩

theorem _root_.Verif.Spec.Conforming.returns' {act : List HObs → HAct S U} (h : Conforming act) : Returns act := by
  intro rd
  obtain ⟨k, d, s, u, x, hr, _⟩ := conforming_run h rd
  exact ⟨0 + k, by rw [hr 0]; simp⟩

/-- The run of a handler that looks at the message as a whole. -/
theorem whole_run {act : List HObs → HAct S U} {v} (hc : WholeMessage act v) (rd : Prep Bytes) :
    ∃ k d s u x, (∀ n, runHandler act (n + k) [] (DStream.new rd) = .returned d s u x) ∧ x.wasCompleted = true ∧
      ((∃ ls, IsMessage rd.bytes ls x.source.bytes ∧ v (decodedLines ls) true = (d, s, u)) ∨
       (∃ ls part, IsUnfinished rd.bytes ls part ∧ x.source.bytes = [] ∧
         v (decodedLines ls ++ decodedPart part) false = (d, s, u))) := by
  obtain ⟨k, h, h1, h2, h3⟩ := reads_to_end hc.reads (DStream.new rd) [] (by simp [Reading])
  obtain ⟨ok, x, h4, h5, h7⟩ := new_complete rd
  have h6 := hc.returns h ok h1
  have hrun : ∀ n, runHandler act (n + (k + 2)) [] (DStream.new rd) =
      .returned (v (textOf h) ok).1 (v (textOf h) ok).2.1 (v (textOf h) ok).2.2 x := by
    intro n
    have := h3 (n + 2)
    rw [show n + (k + 2) = n + 2 + k by omega, this]
    unfold runHandler
    rw [hc.completes h h1]
    simp only [h4]
    unfold runHandler
    rw [h6]
  refine ⟨k + 2, _, _, _, x, hrun, h5, ?_⟩
  simp only [textOf, List.nil_append] at h2
  rcases h7 with ⟨ls, a, rfl, b⟩ | ⟨ls, part, a, a', rfl, b⟩
  · left; exact ⟨ls, a, by rw [← b, ← h2]⟩
  · right; exact ⟨ls, part, a, a', by rw [← b, ← h2]⟩

theorem handles_byText {C : Config L S U} {V : Verdict L S U}
    (hV : ∀ s u m, WholeMessage (C.handleMail s u m) (V s u m)) {fuel s u m b d s' u' b'}
    (h : Handles C fuel s u m b d s' u' b') : ByText V s u m b d s' u' b' := by
  obtain ⟨rd, x, rfl, h2, h3, rfl⟩ := h
  obtain ⟨k, d1, s1, u1, x1, h4, h5, h6⟩ := whole_run (hV s u m) rd
  have h7 := runHandler_mono (by rw [h2]; simp : runHandler (C.handleMail s u m) fuel [] (DStream.new rd) ≠ .running)
    (fuel + k) (by omega)
  rw [h4, h2] at h7
  simp at h7
  obtain ⟨rfl, rfl, rfl, rfl⟩ := h7
  exact h6

/-! ### Any handler -/

/-- What a handler that has not called `complete()` yet has done to its stream. -/
inductive Before (s : Prep Bytes) (d : DStream) : Prop
  | active {o} : d.state.Active → decode .crLfPassed s.bytes = pfx o (decode d.state d.left) → Before s d
  | finished {o} : d.state = .finished → decode .crLfPassed s.bytes = (o, some d.left) → Before s d
  | early : d.source.evs = [] → d.source.pre = none → d.buf.length < 3 → d.state ≠ .finished →
      d.state ≠ .completed → (decode .crLfPassed s.bytes).2 = none → Before s d

theorem before_new (s : Prep Bytes) : Before s (DStream.new s) :=
  .active (o := []) (by simp [DStream.new, DState.Active]) (by simp [DStream.new, DStream.left, pfx])

theorem scanBuf_short {st : DState} {buf : Bytes} (h : buf.length < 3) :
    scanBuf st buf = scanLast st buf := by
  unfold scanBuf
  match buf with
  | [] => rfl
  | [a] => rfl
  | [a, b] => rfl
  | a :: b :: c :: r => simp at h; omega

theorem scanLast_ne {st : DState} {buf : Bytes} :
    (∀ n, (scanLast st buf).2 ≠ .eof n) ∧
    ((scanLast st buf).1 = st ∨ (scanLast st buf).1 = .running ∨ (scanLast st buf).1 = .crPassed ∨
      (scanLast st buf).1 = .crLfPassed) := by
  unfold scanLast
  grind

theorem early_poll (d : DStream) (h1 : d.source.evs = []) (h2 : d.source.pre = none) (h3 : d.buf.length < 3)
    (h4 : d.state ≠ .finished) (h5 : d.state ≠ .completed) :
    d.pollLoop.2.source = { d.source with ends := d.pollLoop.2.source.ends } ∧ d.pollLoop.2.buf.length < 3 ∧ d.pollLoop.2.state ≠ .finished ∧
      d.pollLoop.2.state ≠ .completed := by
  have hpoll : d.source.pollNext = (.ready none, { d.source with ends := d.source.ends + 1 }) := by
    rcases d.source.pollNext_cases with ⟨p, h, h', _⟩ | ⟨p, h, rfl, _⟩ | ⟨a, p, h, h', _⟩
    · rw [h1] at h'; simp at h'
    · exact h
    · rw [h1] at h'; simp at h'
  have hst : ∀ st sp, scanBuf d.state d.buf = (st, sp) → (∀ n, sp ≠ .eof n) ∧ st ≠ .finished ∧ st ≠ .completed := by
    intro st sp h
    rw [scanBuf_short h3] at h
    have := @scanLast_ne d.state d.buf
    rw [h] at this
    refine ⟨this.1, ?_⟩
    rcases this.2 with h | h | h | h <;> simp at h <;> subst h
    · exact ⟨h4, h5⟩
    all_goals simp
  fun_induction DStream.pollLoop d with
  | case1 d st hs hlen => exact ⟨rfl, by simp, (hst _ _ hs).2⟩
  | case2 d st hs hlen s hp => rw [hpoll] at hp; simp at hp
  | case3 d st hs hlen s hp => rw [hpoll] at hp; simp at hp; subst hp; exact ⟨rfl, h3, by simp, by simp⟩
  | case4 d st hs hlen b s hp ih => rw [hpoll] at hp; simp at hp
  | case5 d st x hs res d' hlen => exact absurd rfl ((hst _ _ hs).1 x)
  | case6 d st x hs res d' hlen => exact absurd rfl ((hst _ _ hs).1 x)
  | case7 d st x hs hlen => exact ⟨rfl, by simp; omega, by simp, by simp⟩
  | case8 d st x hs hlen ih =>
    have hb : ((List.drop x d.buf).drop 1).length < 3 := by simp; omega
    exact ih h1 h2 hb (by simp) (by simp) hpoll (by
      intro st sp h
      dsimp only at h
      rw [scanBuf_short hb] at h
      have := @scanLast_ne .running ((List.drop x d.buf).drop 1)
      rw [h] at this
      refine ⟨this.1, ?_⟩
      rcases this.2 with h | h | h | h <;> simp at h <;> subst h <;> simp)
  | case9 d st x hs hx => exact ⟨rfl, by simp; omega, (hst _ _ hs).2⟩
  | case10 d st x hs hx s hp => rw [hpoll] at hp; simp at hp
  | case11 d st x hs hx s hp => rw [hpoll] at hp; simp at hp; subst hp; exact ⟨rfl, h3, by simp, by simp⟩
  | case12 d st x hs hx b s hp ih => rw [hpoll] at hp; simp at hp

theorem scanBuf_unknown {st st' : DState} {buf : Bytes} {x : Nat} (h : scanBuf st buf = (st', .unknown x)) :
    buf.length ≤ x + 2 := by
  have aux : ∀ st idx b, (scanWindows st idx b).2 ≠ .unknown x := by
    intro st idx b
    fun_induction scanWindows st idx b <;> simp_all
  unfold scanBuf at h
  split at h
  · unfold scanLast at h
    grind
  · have := aux st 0 buf
    rw [h] at this
    exact absurd rfl this

theorem early_buf (d : DStream) (h : d.pollLoop.1 = .ready none) (h' : d.pollLoop.2.state = .earlyFin) :
    d.pollLoop.2.buf.length < 3 := by
  fun_induction DStream.pollLoop d with
  | case1 d st hs hlen => simp at h
  | case2 d st hs hlen s hp => simp at h
  | case3 d st hs hlen s hp => simp; omega
  | case4 d st hs hlen b s hp ih => exact ih h h'
  | case5 d st x hs res d' hlen => simp at h
  | case6 d st x hs res d' hlen => simp [d'] at h'
  | case7 d st x hs hlen => simp at h
  | case8 d st x hs hlen ih => exact ih h h'
  | case9 d st x hs hx => simp at h
  | case10 d st x hs hx s hp => simp at h
  | case11 d st x hs hx s hp =>
    have := scanBuf_unknown hs
    simp; omega
  | case12 d st x hs hx b s hp ih => exact ih h h'

theorem before_poll {s : Prep Bytes} {d : DStream} (h : Before s d) : Before s d.pollNext.2 := by
  cases h with
  | finished h1 h2 => rw [pollNext_finished h1]; exact .finished h1 h2
  | early h1 h2 h3 h4 h5 h6 =>
    have hp : d.pollNext = d.pollLoop := by simp [DStream.pollNext, h4]
    rw [hp]
    obtain ⟨e1, e2, e3, e4⟩ := early_poll d h1 h2 h3 h4 h5
    exact .early (by rw [e1]; exact h1) (by rw [e1]; exact h2) e2 e3 e4 h6
  | @active o h1 h2 =>
    rw [pollNext_active h1]
    obtain ⟨taken, sp⟩ := pollLoop_spec d h1
    have hsrc : d.source.bytes = evBytes taken ++ d.pollLoop.2.source.bytes := by simp [Prep.bytes, sp.src]
    have hl : d.left = d.buf ++ evBytes taken ++ d.pollLoop.2.source.bytes := by simp [DStream.left, hsrc]
    have hres := sp.res
    cases hr : d.pollLoop.1 with
    | pending =>
      rw [hr] at hres
      refine .active (o := o) hres.1 ?_
      rw [h2, hl, hres.2.2]; rfl
    | ready x =>
      cases x with
      | some c =>
        rw [hr] at hres
        rcases hres.2 with ⟨a1, a2⟩ | ⟨a1, a2⟩
        · refine .active (o := o ++ c) a1 ?_
          rw [h2, hl, a2, pfx_pfx]; rfl
        · refine .finished (o := o ++ c) a1 ?_
          rw [h2, hl, a2]; rfl
      | none =>
        rw [hr] at hres
        rcases hres with ⟨a1, a2⟩ | ⟨a1, a2, a3, a4⟩
        · refine .finished (o := o) a1 ?_
          rw [h2, hl, a2]; simp [pfx, DStream.left]
        · have he : d.pollLoop.2.source.bytes = [] := by simp [Prep.bytes, a2]
          refine .early a2 a3 (early_buf d hr a1) (by simp [a1]) (by simp [a1]) ?_
          rw [h2, hl, he, List.append_nil, a4]; rfl

theorem before_complete {s : Prep Bytes} {d d' : DStream} {ok : Bool} (h : Before s d)
    (hc : d.complete = .ok (ok, d')) :
    d'.state = .completed ∧
    ((∃ ls, IsMessage s.bytes ls d'.source.bytes ∧ ok = true) ∨
      (¬ HasMarker s.bytes ∧ d'.source.bytes = [] ∧ ok = false)) := by
  have hst : d'.state = .completed := by
    unfold DStream.complete at hc
    split at hc
    · simp at hc; rw [← hc.2]
    · split at hc
      · simp at hc
      · split at hc
        · split at hc <;> simp at hc
          rw [← hc.2]
        · simp at hc; rw [← hc.2]
  refine ⟨hst, ?_⟩
  cases h with
  | active h1 h2 =>
    exfalso
    unfold DStream.complete at hc
    rcases h1 with h1 | h1 | h1 <;> simp [h1] at hc
  | @finished o h1 h2 =>
    left
    have hm : HasMarker s.bytes := by
      apply Classical.byContradiction
      intro hn
      rw [← decode_none_iff, h2] at hn
      simp at hn
    obtain ⟨ls, rest, hm⟩ := (c01_marker_iff _).1 hm
    have hd := decode_message hm
    rw [h2] at hd
    simp at hd
    have hb : d'.source.bytes = d.left ∧ ok = true := by
      unfold DStream.complete at hc
      simp [h1] at hc
      split at hc
      · rename_i hb
        simp at hc
        rw [← hc.2, ← hc.1]
        simp [DStream.left, hb]
      · split at hc
        · rename_i q hq
          simp at hc
          rw [← hc.2, ← hc.1]
          unfold Prep.prepend at hq
          split at hq
          · simp at hq
          · rename_i hp
            simp at hq hp
            subst hq
            simp [Prep.bytes, Prep.evs, hp, DStream.left]
        · simp at hc
    exact ⟨ls, by rw [hb.1, hd.2]; exact hm, hb.2⟩
  | early h1 h2 h3 h4 h5 h6 =>
    right
    refine ⟨(decode_none_iff _).1 h6, ?_⟩
    unfold DStream.complete at hc
    split at hc
    · simp at hc
      rw [← hc.2, ← hc.1]
      exact ⟨by simp [Prep.bytes, h1], rfl⟩
    · simp [h4] at hc

/-- Where any handler that does not poll after `complete()` leaves the connection. -/
theorem runHandler_position {act : List HObs → HAct S U} (ha : NoPollAfterComplete act) (s : Prep Bytes)
    {n d s' u' x} (hr : runHandler act n [] (DStream.new s) = .returned d s' u' x) (hx : x.wasCompleted = true) :
    (∃ ls, IsMessage s.bytes ls x.source.bytes) ∨ (¬ HasMarker s.bytes ∧ x.source.bytes = []) := by
  have key : ∀ n h e, (∀ o ∈ h, ∃ r, o = .polled r) → Before s e →
      runHandler act n h e = .returned d s' u' x →
      (∃ ls, IsMessage s.bytes ls x.source.bytes) ∨ (¬ HasMarker s.bytes ∧ x.source.bytes = []) := by
    intro n
    induction n with
    | zero => intro h e _ _ hr; simp [runHandler] at hr
    | succ n ih =>
      intro h e hh hb hr
      unfold runHandler at hr
      split at hr
      · simp at hr
        obtain ⟨_, _, _, rfl⟩ := hr
        simp [DStream.wasCompleted] at hx
        cases hb with
        | active h1 => rcases h1 with h1 | h1 | h1 <;> simp [h1] at hx
        | finished h1 => simp [h1] at hx
        | early _ _ _ _ h5 => exact absurd hx h5
      · refine ih _ _ ?_ (before_poll hb) hr
        intro o ho
        rcases List.mem_append.1 ho with ho | ho
        · exact hh o ho
        · simp at ho; exact ⟨_, ho⟩
      · split at hr
        · simp at hr
        · rename_i ok d' hc
          obtain ⟨c1, c2⟩ := before_complete hb hc
          -- after complete: only `done` is possible
          cases n with
          | zero => simp [runHandler] at hr
          | succ n =>
            unfold runHandler at hr
            split at hr
            · simp at hr
              obtain ⟨_, _, _, rfl⟩ := hr
              rcases c2 with ⟨ls, c2, _⟩ | ⟨c2, c3, _⟩
              · exact .inl ⟨ls, c2⟩
              · exact .inr ⟨c2, c3⟩
            · rename_i hp
              exact absurd hp (ha h ok)
            · simp [DStream.complete, c1] at hr
  exact key n [] _ (by simp) (before_new s) hr

end Server
end Verif
