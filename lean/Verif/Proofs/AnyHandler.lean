import Verif.Proofs.Termination
/-
Where a mail handler leaves the connection if it is free to use its stream in any way, also after
`complete()`.
-/
namespace Verif
open Spec

theorem decode_afterDot {st : DState} {raw o b : Bytes} (h : decode st raw = (o, some b)) :
    ∃ c, raw = c ++ b!".\r\n" ++ b ∧
      (crlf <:+ c ∨ (st = .crLfPassed ∧ c = []) ∨ (st = .crPassed ∧ c = [cLF])) := by
  induction hn : raw.length using Nat.strongRecOn generalizing st raw o with
  | _ n ih =>
    match raw with
    | [] => simp [decode] at h
    | c :: t =>
      by_cases hc : st = .crLfPassed ∧ c = cDOT
      · obtain ⟨rfl, rfl⟩ := hc
        match t with
        | [] => simp [decode] at h
        | [d] =>
          rw [decode.eq_def] at h
          simp only [true_and, if_true] at h
          split at h
          · simp at h
          · simp [decode] at h
        | d :: e :: r =>
          by_cases hf : d = cCR ∧ e = cLF
          · obtain ⟨rfl, rfl⟩ := hf
            rw [decode_marker] at h
            simp at h
            exact ⟨[], by simp [h.2], .inr (.inl ⟨rfl, rfl⟩)⟩
          · rw [decode_dot hf] at h
            obtain ⟨c, h1, h2⟩ := ih _ (by subst hn; simp) h rfl
            refine ⟨cDOT :: c, by rw [h1]; simp, .inl ?_⟩
            rcases h2 with h2 | ⟨h2, _⟩ | ⟨h2, _⟩
            · exact h2.trans (List.suffix_cons _ _)
            · simp at h2
            · simp at h2
      · rw [decode_cons_of_not hc] at h
        have : decode (st.next c) t = ((decode (st.next c) t).1, some b) := by
          simp [pfx] at h
          rw [← h.2]
        obtain ⟨x, h1, h2⟩ := ih _ (by subst hn; simp) this rfl
        refine ⟨c :: x, by rw [h1]; simp, ?_⟩
        rcases h2 with h2 | ⟨h2, rfl⟩ | ⟨h2, rfl⟩
        · exact .inl (h2.trans (List.suffix_cons _ _))
        · unfold DState.next at h2
          split at h2
          · simp at h2
          · split at h2
            · rename_i hcr hh
              exact .inr (.inr ⟨hh.1, by rw [hh.2]⟩)
            · simp at h2
        · left
          have : c = cCR := by
            unfold DState.next at h2
            split at h2
            · assumption
            · split at h2 <;> simp at h2
          subst this
          exact List.suffix_rfl

/-- A stream whose source has ended. -/
theorem dead_poll (d : DStream) (h1 : d.source.evs = []) (h2 : d.source.pre = none) (h3 : d.buf.length < 3)
    (h4 : d.state ≠ .finished) :
    d.pollLoop.2.source = { d.source with ends := d.pollLoop.2.source.ends } ∧ d.pollLoop.2.buf.length < 3 ∧ d.pollLoop.2.state ≠ .finished := by
  have hpoll : d.source.pollNext = (.ready none, { d.source with ends := d.source.ends + 1 }) := by
    rcases d.source.pollNext_cases with ⟨p, h, h', _⟩ | ⟨p, h, rfl, _⟩ | ⟨a, p, h, h', _⟩
    · rw [h1] at h'; simp at h'
    · exact h
    · rw [h1] at h'; simp at h'
  have hst : ∀ st0 buf st sp, st0 ≠ .finished → buf.length < 3 → scanBuf st0 buf = (st, sp) →
      (∀ n, sp ≠ .eof n) ∧ st ≠ .finished := by
    intro st0 buf st sp h0 hb h
    rw [Server.scanBuf_short hb] at h
    have := @Server.scanLast_ne st0 buf
    rw [h] at this
    refine ⟨this.1, ?_⟩
    rcases this.2 with h | h | h | h <;> simp at h <;> subst h
    · exact h0
    all_goals simp
  fun_induction DStream.pollLoop d with
  | case1 d st hs hlen => exact ⟨rfl, by simp, (hst _ _ _ _ h4 h3 hs).2⟩
  | case2 d st hs hlen s hp => rw [hpoll] at hp; simp at hp
  | case3 d st hs hlen s hp => rw [hpoll] at hp; simp at hp; subst hp; exact ⟨rfl, h3, by simp⟩
  | case4 d st hs hlen b s hp ih => rw [hpoll] at hp; simp at hp
  | case5 d st x hs res d' hlen => exact absurd rfl ((hst _ _ _ _ h4 h3 hs).1 x)
  | case6 d st x hs res d' hlen => exact absurd rfl ((hst _ _ _ _ h4 h3 hs).1 x)
  | case7 d st x hs hlen => exact ⟨rfl, by simp; omega, by simp⟩
  | case8 d st x hs hlen ih =>
    have hb : ((List.drop x d.buf).drop 1).length < 3 := by simp; omega
    exact ih h1 h2 hb (by simp) hpoll
  | case9 d st x hs hx => exact ⟨rfl, by simp; omega, (hst _ _ _ _ h4 h3 hs).2⟩
  | case10 d st x hs hx s hp => rw [hpoll] at hp; simp at hp
  | case11 d st x hs hx s hp => rw [hpoll] at hp; simp at hp; subst hp; exact ⟨rfl, h3, by simp⟩
  | case12 d st x hs hx b s hp ih => rw [hpoll] at hp; simp at hp

theorem scanWindows_completed (idx : Nat) (buf : Bytes) (h : 3 ≤ buf.length) :
    scanWindows .completed idx buf = scanWindows .running idx buf := by
  match buf with
  | a :: b :: c :: r => simp [scanWindows]
  | [] => simp at h
  | [a] => simp at h
  | [a, b] => simp at h

theorem scanBuf_completed {buf : Bytes} (h : buf ≠ []) : scanBuf .completed buf = scanBuf .running buf := by
  by_cases hl : 3 ≤ buf.length
  · unfold scanBuf
    rw [scanWindows_completed _ _ hl]
  · rw [Server.scanBuf_short (by omega), Server.scanBuf_short (by omega)]
    unfold scanLast
    match buf with
    | [] => simp at h
    | [a] => simp
    | [a, b] => simp
    | a :: b :: c :: r => simp at hl

theorem pollLoop_congr {s : Prep Bytes} {st1 st2 : DState} {buf : Bytes}
    (h : scanBuf st1 buf = scanBuf st2 buf) :
    DStream.pollLoop ⟨s, st1, buf⟩ = DStream.pollLoop ⟨s, st2, buf⟩ := by
  rw [DStream.pollLoop.eq_def, DStream.pollLoop.eq_def ⟨s, st2, buf⟩]
  dsimp only
  generalize h1 : scanBuf st1 buf = r1
  generalize h2 : scanBuf st2 buf = r2
  obtain rfl : r1 = r2 := by rw [← h1, ← h2, h]
  clear h h1 h2
  obtain ⟨st, sp⟩ := r1
  cases sp <;> rfl

/-- Polling after `complete()`, the buffer being empty. -/
theorem pollLoop_completed (s : Prep Bytes) :
    (∃ s', DStream.pollLoop ⟨s, .completed, []⟩ = (.pending, ⟨s', .completed, []⟩) ∧ s'.bytes = s.bytes) ∨
    (∃ s', DStream.pollLoop ⟨s, .completed, []⟩ = (.ready none, ⟨s', .earlyFin, []⟩) ∧ s'.evs = [] ∧ s'.pre = none) ∨
    (∃ s' b, DStream.pollLoop ⟨s, .completed, []⟩ = DStream.pollLoop ⟨s', .running, b⟩ ∧ s.bytes = b ++ s'.bytes) := by
  induction hn : s.size using Nat.strongRecOn generalizing s with
  | _ n ih =>
    have hs : scanBuf .completed [] = (.completed, .nowhere) := by simp [scanBuf, scanWindows, scanLast]
    have step : DStream.pollLoop ⟨s, .completed, []⟩ = match s.pollNext with
        | (.pending, s) => (.pending, ⟨s, .completed, []⟩)
        | (.ready none, s) => (.ready none, ⟨s, .earlyFin, []⟩)
        | (.ready (some b), s) => DStream.pollLoop ⟨s, .completed, b⟩ := by
      rw [DStream.pollLoop.eq_def]
      split
      · rename_i st h
        rw [hs] at h
        simp at h
        subst h
        simp only [List.length_nil, Nat.lt_irrefl, if_false]
        split <;> rename_i hp <;> rw [hp] <;> rfl
      all_goals
        rename_i h
        rw [hs] at h
        simp at h
    rw [step]
    rcases hp : s.pollNext with ⟨r, s'⟩
    match r with
    | .pending => exact .inl ⟨s', rfl, (Prep.bytes_pending hp).symm⟩
    | .ready none =>
      obtain ⟨rfl, h1, h2⟩ := Prep.pollNext_none hp
      exact .inr (.inl ⟨_, rfl, h1, h2⟩)
    | .ready (some b) =>
      have hb := Prep.bytes_some hp
      dsimp only
      by_cases he : b = []
      · subst he
        have := ih _ (by subst hn; exact Prep.size_ready hp) s' rfl
        rw [List.nil_append] at hb
        rw [hb]
        exact this
      · exact .inr (.inr ⟨s', b, pollLoop_congr (scanBuf_completed he), hb⟩)

/-- What any handler may have done to its stream. -/
inductive Whenever (raw : Bytes) (d : DStream) : Prop
  | dead : d.source.evs = [] → d.source.pre = none → d.buf.length < 3 → d.state ≠ .finished → Whenever raw d
  | active {c rest st0 o} : d.state.Active → raw = c ++ rest → (c = [] ∨ crlf <:+ c) →
      (st0 = .running ∨ st0 = .crLfPassed) → decode st0 rest = pfx o (decode d.state d.left) → Whenever raw d
  | finished : d.state = .finished → AfterDot raw d.left → Whenever raw d
  | completed : d.state = .completed → d.buf = [] → AfterDot raw d.source.bytes → Whenever raw d

theorem afterDot_decode {raw c rest o b : Bytes} {st0 : DState} (h1 : raw = c ++ rest) (h2 : c = [] ∨ crlf <:+ c)
    (h3 : st0 = .running ∨ st0 = .crLfPassed) (h4 : decode st0 rest = (o, some b)) : AfterDot raw b := by
  obtain ⟨x, e1, e2⟩ := decode_afterDot h4
  refine ⟨c ++ x, by rw [h1, e1]; simp, ?_⟩
  rcases e2 with e2 | ⟨_, rfl⟩ | ⟨e2, _⟩
  · exact .inr (e2.trans (List.suffix_append _ _))
  · simpa using h2
  · rcases h3 with rfl | rfl <;> simp at e2

theorem whenever_loop {raw : Bytes} {d : DStream} {c rest st0 o} (ha : d.state.Active) (h1 : raw = c ++ rest)
    (h2 : c = [] ∨ crlf <:+ c) (h3 : st0 = .running ∨ st0 = .crLfPassed)
    (h4 : decode st0 rest = pfx o (decode d.state d.left)) : Whenever raw d.pollLoop.2 := by
  obtain ⟨taken, sp⟩ := pollLoop_spec d ha
  have hsrc : d.source.bytes = evBytes taken ++ d.pollLoop.2.source.bytes := by simp [Prep.bytes, sp.src]
  have hl : d.left = d.buf ++ evBytes taken ++ d.pollLoop.2.source.bytes := by simp [DStream.left, hsrc]
  have hres := sp.res
  cases hr : d.pollLoop.1 with
  | pending =>
    rw [hr] at hres
    refine .active (o := o) hres.1 h1 h2 h3 ?_
    rw [h4, hl, hres.2.2]; rfl
  | ready x =>
    cases x with
    | some y =>
      rw [hr] at hres
      rcases hres.2 with ⟨a1, a2⟩ | ⟨a1, a2⟩
      · refine .active (o := o ++ y) a1 h1 h2 h3 ?_
        rw [h4, hl, a2, pfx_pfx]; rfl
      · refine .finished a1 (afterDot_decode (o := o ++ y) h1 h2 h3 ?_)
        rw [h4, hl, a2]; rfl
    | none =>
      rw [hr] at hres
      rcases hres with ⟨a1, a2⟩ | ⟨a1, a2, a3, a4⟩
      · refine .finished a1 (afterDot_decode (o := o) h1 h2 h3 ?_)
        rw [h4, hl, a2]; simp [pfx, DStream.left]
      · exact .dead a2 a3 (Server.early_buf d hr a1) (by simp [a1])

theorem whenever_poll {raw : Bytes} {d : DStream} (h : Whenever raw d) : Whenever raw d.pollNext.2 := by
  cases h with
  | dead h1 h2 h3 h4 =>
    have hp : d.pollNext = d.pollLoop := by simp [DStream.pollNext, h4]
    rw [hp]
    obtain ⟨e1, e2, e3⟩ := dead_poll d h1 h2 h3 h4
    exact .dead (by rw [e1]; exact h1) (by rw [e1]; exact h2) e2 e3
  | active h1 h2 h3 h4 h5 =>
    rw [pollNext_active h1]
    exact whenever_loop h1 h2 h3 h4 h5
  | finished h1 h2 => rw [pollNext_finished h1]; exact .finished h1 h2
  | completed h1 h2 h3 =>
    have hp : d.pollNext = d.pollLoop := by simp [DStream.pollNext, h1]
    rw [hp]
    obtain ⟨s, st, buf⟩ := d
    dsimp only at h1 h2 h3
    subst h1 h2
    rcases pollLoop_completed s with ⟨s', e, hb⟩ | ⟨s', e, e1, e2⟩ | ⟨s', b, e, hb⟩
    · rw [e]; exact .completed rfl rfl (by rw [hb]; exact h3)
    · rw [e]; exact .dead e1 e2 (by simp) (by simp)
    · rw [e]
      obtain ⟨c, k1, k2⟩ := h3
      refine whenever_loop (c := c ++ b!".\r\n") (rest := s.bytes) (st0 := .running) (o := [])
        (.inl rfl) k1 (.inr ?_) (.inl rfl) ?_
      · exact (by decide : crlf <:+ b!".\r\n").trans (List.suffix_append _ _)
      · simp [DStream.left, hb]

theorem whenever_complete {raw : Bytes} {d d' : DStream} {ok : Bool} (h : Whenever raw d)
    (hc : d.complete = .ok (ok, d')) : Whenever raw d' := by
  unfold DStream.complete at hc
  split at hc
  · rename_i he
    simp at hc
    rw [← hc.2]
    cases h with
    | dead h1 h2 h3 h4 => exact .dead h1 h2 h3 (by simp)
    | active h1 => rcases h1 with h1 | h1 | h1 <;> simp [h1] at he
    | finished h1 => simp [h1] at he
    | completed h1 => simp [h1] at he
  · split at hc
    · simp at hc
    · rename_i h1 h2
      simp at h2
      have hd : AfterDot raw d.left := by
        cases h with
        | dead _ _ _ h4 => exact absurd h2 h4
        | active h1 => rcases h1 with h1 | h1 | h1 <;> simp [h1] at h2
        | finished _ h => exact h
        | completed h1 => simp [h1] at h2
      split at hc
      · split at hc
        · rename_i s hs
          simp at hc
          have : s.bytes = d.left := by
            unfold Prep.prepend at hs
            split at hs
            · simp at hs
            · rename_i hp
              simp at hs hp
              subst hs
              simp [Prep.bytes, Prep.evs, hp, DStream.left]
          rw [← hc.2]
          exact .completed rfl rfl (by rw [this]; exact hd)
        · simp at hc
      · rename_i hb
        simp at hc hb
        rw [← hc.2]
        exact .completed rfl hb (by simpa [DStream.left, hb] using hd)

namespace Server
variable {L : IpLib} {S U : Type}

theorem runHandler_whenever {act : List HObs → HAct S U} {raw : Bytes} {n h d dec s u x} (hw : Whenever raw d)
    (hr : runHandler act n h d = .returned dec s u x) : Whenever raw x := by
  induction n generalizing h d with
  | zero => simp [runHandler] at hr
  | succ n ih =>
    unfold runHandler at hr
    split at hr
    · simp at hr
      rw [← hr.2.2.2]
      exact hw
    · exact ih (whenever_poll hw) hr
    · split at hr
      · simp at hr
      · rename_i hc
        exact ih (whenever_complete hw hc) hr

/-- Any handler leaves the connection after a line with only a dot, or at its end. -/
theorem runHandler_anywhere {act : List HObs → HAct S U} (s : Prep Bytes) {n d s' u' x}
    (hr : runHandler act n [] (DStream.new s) = .returned d s' u' x) (hx : x.wasCompleted = true) :
    AfterDot s.bytes x.source.bytes ∨ x.source.bytes = [] := by
  have hw : Whenever s.bytes (DStream.new s) :=
    .active (c := []) (o := []) (.inr (.inr rfl)) rfl (.inl rfl) (.inr rfl) (by simp [DStream.new, DStream.left, Prep.bytes])
  have hx' : x.state = .completed := by simpa [DStream.wasCompleted] using hx
  cases runHandler_whenever hw hr with
  | dead h1 _ _ _ => right; simp [Prep.bytes, h1]
  | active h1 => rcases h1 with h1 | h1 | h1 <;> simp [h1] at hx'
  | finished h1 => simp [h1] at hx'
  | completed _ _ h => exact .inl h

end Server
end Verif
