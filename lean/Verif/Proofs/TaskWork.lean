import Verif.Model.TaskWork
import Verif.Spec.TaskWork
import Verif.Props.Work
import Verif.Props.ParseWork
import Verif.Proofs.Checked
/-
Potentials of a session for what its steps cost (C116).
-/
namespace Verif
namespace TaskWork
open Task Spec Checked
variable {L : IpLib} {S U : Type} {C : Config L S U}

/-- What is held and can still be got. -/
def left (x : State L S U) : Nat :=
  match x.1 with
  | .over _ => 0
  | .read buf => buf.length + x.2.reader.bytes.length
  | .handle _ _ d => d.buf.length + d.source.bytes.length
  | _ => x.2.reader.bytes.length

theorem within_iff (n : Nat) (x : State L S U) : within n x ↔ left x ≤ n := by
  obtain ⟨pc, w⟩ := x
  cases pc <;> simp [within, left]

theorem left_step (x : State L S U) : left (Task.step C x) ≤ left x :=
  (within_iff _ _).1 (within_step x ((within_iff _ _).2 (Nat.le_refl _)))

theorem left_reply (r : Reply) (a : After L) (w : World L S U) : left ((Task.reply r a, w) : State L S U) ≤ w.reader.bytes.length :=
  (within_iff _ _).1 (within_reply r a w (Nat.le_refl _))

theorem left_dispatch (w : World L S U) (line : Bytes) : left (Task.dispatch C w line) ≤ w.reader.bytes.length :=
  (within_iff _ _).1 (within_dispatch w line (Nat.le_refl _))

theorem spent_succ (f : State L S U → Nat) (n : Nat) (x : State L S U) :
    spent C f (n + 1) x = spent C f n x + f (Task.steps C n x) := by
  induction n generalizing x with
  | zero => simp [spent, Task.steps]
  | succ n ih => rw [spent, ih (Task.step C x), spent, Task.steps]; omega

/-- A potential pays for the cost. -/
theorem spent_le {f g : State L S U → Nat} {phi : State L S U → Nat} {P : State L S U → Prop} (hP : ∀ x, P x → P (Task.step C x))
    (h : ∀ x, P x → f x + phi (Task.step C x) ≤ phi x + g x) (n : Nat) (x : State L S U) (hx : P x) :
    spent C f n x + phi (Task.steps C n x) ≤ phi x + spent C g n x := by
  induction n generalizing x with
  | zero => simp [spent, Task.steps]
  | succ n ih =>
    have h1 := h x hx
    have h2 := ih (Task.step C x) (hP x hx)
    rw [spent, spent, Task.steps]
    omega

/-- A line that is read leaves. -/
theorem left_line {buf pkt : Bytes} {w : World L S U} {s : Prep Bytes} {pos : Nat} (hp : w.reader.pollNext = (.ready (some pkt), s))
    (hf : findCrlf (buf ++ pkt) = some pos) :
    pos + 2 + left (Task.step C (.read buf, w)) ≤ left ((.read buf, w) : State L S U) := by
  have e := congrArg List.length (bytes_some hp)
  have hl := findCrlf_lt hf
  simp only [List.length_append] at e hl
  simp only [Task.step, hp, hf]
  cases hq : s.prepend ((buf ++ pkt).drop (pos + 2)) with
  | none => simp [left]; omega
  | some s' =>
    refine Nat.le_trans (Nat.add_le_add_left (left_dispatch _ _) _) ?_
    simp [bytes_prepend hq, left]
    omega

theorem parse_step (x : State L S U) : parseWork x + 271 * left (Task.step C x) ≤ 271 * left x := by
  have h0 := left_step (C := C) x
  unfold parseWork
  split
  · rename_i buf w
    split
    · rename_i pkt s hp
      split
      · rename_i pos hf
        have h1 := c107_command (L := L) ((buf ++ pkt).take (pos + 2))
        have h2 := left_line (C := C) hp hf
        have h3 : ((buf ++ pkt).take (pos + 2)).length ≤ pos + 2 := List.length_take_le ..
        omega
      · omega
    · omega
  · omega

/-! ### Searching -/

/-- Whether something is pushed back. -/
def pushed (p : Prep Bytes) : Nat := if p.pre.isSome then 1 else 0

/-- What can still be searched in vain. -/
def rounds (x : State L S U) : Nat :=
  match x.1 with
  | .over _ => 0
  | .handle _ _ d => 2 * packets d.source.src + (if d.source.pre.isSome ∨ d.buf ≠ [] then 1 else 0)
  | _ => 2 * packets x.2.reader.src + pushed x.2.reader

theorem rounds_reply (r : Reply) (a : After L) (w : World L S U) :
    rounds ((Task.reply r a, w) : State L S U) ≤ 2 * packets w.reader.src + pushed w.reader := by
  unfold Task.reply
  split <;> simp [rounds]

theorem rounds_dispatch (w : World L S U) (line : Bytes) :
    rounds (Task.dispatch C w line) ≤ 2 * packets w.reader.src + pushed w.reader := by
  unfold Task.dispatch
  rcases (Command.parse line : Except ParseErr (Command L)) with e | c
  · exact rounds_reply _ _ _
  · cases c with
    | mail f ps =>
      simp only
      split
      · exact rounds_reply _ _ _
      · exact Nat.le_refl _
    | rcpt t ps =>
      cases w.mail with
      | some m => exact Nat.le_refl _
      | none => exact rounds_reply _ _ _
    | data =>
      cases w.mail with
      | some m =>
        simp only
        split
        · exact rounds_reply _ _ _
        · exact Nat.le_refl _
      | none => exact rounds_reply _ _ _
    | _ => exact rounds_reply _ _ _

/-- What a packet that is taken pays for. -/
theorem next_some {p q : Prep Bytes} {b : Bytes} (h : p.pollNext = (.ready (some b), q)) :
    q.pre = none ∧ 2 * packets q.src + 1 ≤ 2 * packets p.src + pushed p := by
  unfold Prep.pollNext at h
  cases hp : p.pre with
  | some a =>
    simp [hp] at h
    obtain ⟨_, rfl⟩ := h
    simp [pushed, hp]
  | none =>
    cases hs : p.src with
    | nil => simp [hp, hs] at h
    | cons e r =>
      cases e <;> simp [hp, hs] at h
      obtain ⟨_, rfl⟩ := h
      simp [packets]; omega

theorem next_other {p q : Prep Bytes} {o} (h : p.pollNext = (o, q)) :
    2 * packets q.src + pushed q ≤ 2 * packets p.src + pushed p ∧ (q.pre.isSome → p.pre.isSome) ∧ packets q.src ≤ packets p.src := by
  unfold Prep.pollNext at h
  cases hp : p.pre with
  | some a =>
    simp [hp] at h
    obtain ⟨_, rfl⟩ := h
    simp [pushed, hp]
  | none =>
    cases hs : p.src with
    | nil => simp [hp, hs] at h; obtain ⟨_, rfl⟩ := h; simp [pushed, hp]
    | cons e r => cases e <;> simp [hp, hs] at h <;> obtain ⟨_, rfl⟩ := h <;> simp [pushed, packets, hp] <;> omega

theorem prepend_pushed {p q : Prep Bytes} {b : Bytes} (h : p.prepend b = some q) : q.src = p.src ∧ pushed q = 1 ∧ pushed p = 0 := by
  unfold Prep.prepend at h
  split at h
  · cases h
  · rename_i hn
    cases h
    simp at hn
    simp [pushed, hn]

/-- `rounds` of a message stream. -/
def dRounds (d : DStream) : Nat := 2 * packets d.source.src + (if d.source.pre.isSome ∨ d.buf ≠ [] then 1 else 0)

theorem dRounds_same {d d' : DStream} (h1 : d'.source = d.source) (h2 : d'.buf ≠ [] → d.buf ≠ []) : dRounds d' ≤ dRounds d := by
  unfold dRounds
  rw [h1]
  split
  · rename_i h
    rw [if_pos (h.imp id h2)]; exact Nat.le_refl _
  · omega

theorem dRounds_more {d d' : DStream} (h : ∀ b, d'.buf = b → 2 * packets d'.source.src + 1 ≤ dRounds d) : dRounds d' ≤ dRounds d := by
  have := h _ rfl
  unfold dRounds at this ⊢
  split <;> omega

theorem pushed_le (d : DStream) : 2 * packets d.source.src + pushed d.source ≤ dRounds d := by
  unfold dRounds pushed
  split
  · rename_i h; rw [if_pos (.inl h)]; exact Nat.le_refl _
  · omega

theorem dRounds_other {d d' : DStream} {o} (h1 : d.source.pollNext = (o, d'.source)) (h2 : d'.buf = d.buf) : dRounds d' ≤ dRounds d := by
  have := next_other h1
  unfold dRounds
  rw [h2]
  split
  · rename_i h
    rw [if_pos (h.imp this.2.1 id)]; have := this.2.2; omega
  · have := this.2.2; omega

theorem loop_rounds (d : DStream) : dRounds d.pollLoop.2 ≤ dRounds d := by
  fun_induction DStream.pollLoop d with
  | case1 => exact dRounds_same rfl (by simp)
  | case2 d st hs hlen s hp => exact dRounds_other hp rfl
  | case3 d st hs hlen s hp => exact dRounds_other hp rfl
  | case4 d st hs hlen b s hp ih =>
    refine Nat.le_trans ih (dRounds_more fun _ _ => ?_)
    have h1 := (next_some hp).2
    have h2 := pushed_le d
    simp only; omega
  | case5 d st x hs res d' hlen => exact dRounds_same rfl (by intro h h2; simp [h2, d'] at h)
  | case6 d st x hs res d' hlen => exact dRounds_same rfl (by intro h h2; simp [h2, d'] at h)
  | case7 => exact dRounds_same rfl (by intro h h2; simp [h2] at h)
  | case8 d st x hs hlen ih => exact Nat.le_trans ih (dRounds_same rfl (by intro h h2; simp [h2] at h))
  | case9 => exact dRounds_same rfl (by intro h h2; simp [h2] at h)
  | case10 d st x hs hx s hp => exact dRounds_other hp rfl
  | case11 d st x hs hx s hp => exact dRounds_other hp rfl
  | case12 d st x hs hx b s hp ih =>
    refine Nat.le_trans ih (dRounds_more fun _ _ => ?_)
    have h1 := (next_some hp).2
    have h2 := pushed_le d
    simp only; omega

theorem poll_rounds (d : DStream) : dRounds d.pollNext.2 ≤ dRounds d := by
  unfold DStream.pollNext
  split
  · exact Nat.le_refl _
  · exact loop_rounds d

theorem complete_rounds {d d' : DStream} {ok : Bool} (h : d.complete = .ok (ok, d')) : dRounds d' ≤ dRounds d := by
  unfold DStream.complete at h
  split at h
  · cases h; exact dRounds_same rfl id
  · split at h
    · cases h
    · split at h
      · split at h
        · rename_i hb _ _ hp
          cases h
          have h1 := (prepend_pushed hp).1
          unfold dRounds
          rw [if_pos (show d.source.pre.isSome = true ∨ d.buf ≠ [] from .inr hb)]
          simp only [h1]
          split <;> omega
        · cases h
      · cases h; exact dRounds_same rfl id

/-- A round is a search in vain. -/
def vain : State L S U → Nat
  | (.read buf, w) =>
    match w.reader.pollNext with
    | (.ready (some pkt), _) => if (findCrlf (buf ++ pkt)).isSome then 0 else 1
    | _ => 0
  | _ => 0

theorem vain_step (x : State L S U) : vain x + rounds (Task.step C x) ≤ rounds x := by
  obtain ⟨pc, w⟩ := x
  cases pc with
  | read buf =>
    rcases hp : w.reader.pollNext with ⟨_ | _, s⟩
    · rename_i o
      cases o with
      | none =>
        simp only [Task.step, hp, vain]
        cases s.prepend buf <;> simp [rounds]
      | some pkt =>
        obtain ⟨h1, h2⟩ := next_some hp
        simp only [Task.step, hp, vain]
        cases findCrlf (buf ++ pkt) with
        | none =>
          simp only [rounds, pushed, h1]
          simp only [pushed] at h2
          simp; omega
        | some pos =>
          simp only
          cases hq : s.prepend ((buf ++ pkt).drop (pos + 2)) with
          | none => simp [rounds]
          | some s' =>
            have h3 := rounds_dispatch (C := C) { w with reader := s', trace := w.trace ++ [.line ((buf ++ pkt).take (pos + 2))] }
              ((buf ++ pkt).take (pos + 2))
            obtain ⟨e1, e2, _⟩ := prepend_pushed hq
            simp only [e1, e2] at h3
            simp only [Option.isSome_some, if_true]
            refine Nat.le_trans (Nat.add_le_add_left h3 _) ?_
            simp only [rounds]
            omega
    · have := (next_other hp).1
      simp only [Task.step, hp, vain, rounds]
      omega
  | send r left a =>
    cases left with
    | nil =>
      have e := flush_reader w
      simp only [Task.step, vain]
      rcases hq : Server.flush w with ⟨_ | _ | _ | _, w'⟩ <;> rw [hq] at e <;> simp only at e
      · cases a <;> simp [resume, rounds, DStream.new, e, pushed]
      all_goals simp [rounds]
    | cons t ts =>
      simp only [Task.step, vain]
      split
      · simp [rounds]
      · rename_i l _
        have e := writeLine_reader l w
        rcases hq : Server.writeLine l w with ⟨_ | _ | _ | _, w'⟩ <;> rw [hq] at e <;> simp only at e
        · simp [rounds, e]
        all_goals simp [rounds]
  | newMail f => simp [vain, Task.step, rounds]
  | filterFrom f =>
    simp only [Task.step, vain]
    rcases hq : C.filterFrom w.cfg w.conn f with ⟨_ | r, f', s, u⟩ <;> simpa [rounds] using rounds_reply _ _ _
  | filterTo t m =>
    simp only [Task.step, vain]
    rcases hq : C.filterTo w.cfg w.conn t m with ⟨_ | r, t', m', s, u⟩ <;> simpa [rounds] using rounds_reply _ _ _
  | filterData m =>
    simp only [Task.step, vain]
    rcases hq : C.filterData w.cfg w.conn m with ⟨_ | r, m', s, u⟩ <;> simpa [rounds] using rounds_reply _ _ _
  | handle act hh d =>
    simp only [Task.step, vain]
    cases act hh with
    | poll => simpa [rounds, dRounds] using poll_rounds d
    | complete =>
      simp only
      cases hq : d.complete with
      | error p => simp [rounds]
      | ok r => simpa [rounds, dRounds] using complete_rounds hq
    | done dec s u =>
      simp only
      split
      · have h1 := pushed_le d
        refine Nat.le_trans (Nat.add_le_add_left (rounds_reply _ _ _) _) ?_
        simpa [rounds, dRounds] using h1
      · simp [rounds]
  | over r => simp [vain, Task.step]

/-- The cost of a search: what leaves, if it finds something, and else at most everything. -/
theorem search_step (N : Nat) (x : State L S U) (h : left x ≤ N) :
    searchWork x + (left (Task.step C x) + rounds (Task.step C x) * N) ≤ left x + rounds x * N := by
  have h0 := left_step (C := C) x
  have hv := vain_step (C := C) x
  have hm : (vain x + rounds (Task.step C x)) * N ≤ rounds x * N := Nat.mul_le_mul_right N hv
  rw [Nat.add_mul] at hm
  have h1 : searchWork x + left (Task.step C x) ≤ left x + vain x * N := by
    unfold searchWork
    split
    · rename_i buf w
      split
      · rename_i pkt s hp
        cases hf : findCrlf (buf ++ pkt) with
        | some pos =>
          have h2 := left_line (C := C) hp hf
          simp only [findCrlfWork, hf]
          omega
        | none =>
          have h3 := findCrlfWork_le (buf ++ pkt)
          have e := congrArg List.length (bytes_some hp)
          simp only [List.length_append] at e h3
          have h4 : left ((.read buf, w) : State L S U) = buf.length + w.reader.bytes.length := rfl
          simp only [vain, hp, hf]
          simp
          omega
      · omega
    · omega
  omega

/-! ### Messages -/

/-- What can still be decoded. -/
def dCost (d : DStream) : Nat := d.buf.length + d.source.bytes.length + packets d.source.evs + (if d.state = .finished then 1 else 0)

/-- The same of a session. -/
def toDecode (x : State L S U) : Nat :=
  match x.1 with
  | .over _ => 0
  | .read buf => buf.length + x.2.reader.bytes.length + packets x.2.reader.evs
  | .handle _ _ d => dCost d
  | _ => x.2.reader.bytes.length + packets x.2.reader.evs

theorem scan_eof {st st' : DState} {buf : Bytes} {n x : Nat} (h : scanBufC st buf = (n, st', .eof x)) : n = x + 1 := by
  have hw := windows_cost st 0 buf
  unfold scanBufC at h
  split at h
  · rename_i st1 _
    simp only [Prod.mk.injEq] at h
    exact absurd (congrArg Prod.snd h.2) ((Server.scanLast_ne (st := st1) (buf := buf)).1 x)
  · rw [h] at hw
    simp only [WinCost] at hw
    omega

theorem windows_unfinished (st : DState) (idx : Nat) (buf : Bytes) (h : st ≠ .finished) : (scanWindows st idx buf).1 ≠ .finished := by
  fun_induction scanWindows st idx buf <;> simp_all

/-- Only a final dot makes the state `Finished`. -/
theorem scan_unfinished {st st' : DState} {buf : Bytes} {n : Nat} {sp : BufSplit} (h : scanBufC st buf = (n, st', sp)) (h0 : st ≠ .finished) :
    st' ≠ .finished := by
  have e : scanBuf st buf = (st', sp) := by rw [← scanBufC_fst, h]
  have hw := windows_unfinished st 0 buf h0
  unfold scanBuf at e
  split at e
  · rename_i st1 hs
    rw [hs] at hw
    rcases (Server.scanLast_ne (st := st1) (buf := buf)).2 with h | h | h | h <;> rw [e] at h <;> simp only at h <;> rw [h] <;>
      first | exact hw | simp
  · rw [e] at hw; exact hw

theorem cost_pending {p q : Prep Bytes} (h : p.pollNext = (.pending, q)) : packets p.evs = packets q.evs := by
  simp [(Prep.pollNext_pending h).1, packets]

theorem cost_some {p q : Prep Bytes} {b : Bytes} (h : p.pollNext = (.ready (some b), q)) : packets p.evs = packets q.evs + 1 := by
  simp [(Prep.pollNext_some h).1, packets]

theorem scan_none {st st' : DState} {n : Nat} {buf : Bytes} (hb : ¬ 0 < buf.length) (h : scanBufC st buf = (n, st', .nowhere)) : n = 1 := by
  have : buf = [] := by simpa using hb
  subst this
  simp [scanBufC, scanWindowsC] at h; omega

theorem dCost_eq {d : DStream} (h : d.state ≠ .finished) : dCost d = d.buf.length + d.source.bytes.length + packets d.source.evs := by
  simp [dCost, h]

theorem loop_paid (d : DStream) (h0 : d.state ≠ .finished) : d.pollLoopC.1 + dCost d.pollLoopC.2.2 ≤ dCost d + 1 := by
  fun_induction DStream.pollLoopC d with
  | case1 d n st hs hlen =>
    have := scan_cost hs
    rw [dCost_eq h0, dCost_eq (scan_unfinished hs h0)]
    rcases this with h | h
    · simp only [List.length_nil]; omega
    · rw [h.1] at hlen; simp at hlen
  | case2 d n st hs hlen s hp =>
    have := scan_none hlen hs
    have e := cost_pending hp
    have e' := bytes_pending hp
    rw [dCost_eq h0, dCost_eq (scan_unfinished hs h0)]
    simp only [e, e']
    omega
  | case3 d n st hs hlen s hp =>
    have := scan_none hlen hs
    have e := congrArg Spec.packets (evs_ended hp)
    have e' := bytes_none hp
    simp only [List.nil_append] at e
    rw [dCost_eq h0, dCost_eq (by simp)]
    simp only [e, e', List.length_nil]
    omega
  | case4 d n st hs hlen b s hp r ih =>
    have := scan_none hlen hs
    have hu := scan_unfinished hs h0
    have e := cost_some hp
    have e' := congrArg List.length (bytes_some hp)
    have ih := ih hu
    rw [dCost_eq (d := { d with source := s, state := st, buf := d.buf ++ b }) hu] at ih
    rw [dCost_eq h0]
    simp only [r]
    simp only [List.length_append] at ih e'
    omega
  | case5 d n st x hs res d' hlen =>
    obtain ⟨h1, h2⟩ := scan_cost hs
    have := scan_eof hs
    simp only [d', dCost, List.length_drop, if_true]
    omega
  | case6 d n st x hs res d' hlen =>
    obtain ⟨h1, h2⟩ := scan_cost hs
    have := scan_eof hs
    simp only [d', dCost, List.length_drop, if_true]
    omega
  | case7 d n st x hs hlen =>
    obtain ⟨h1, h2⟩ := scan_cost hs
    rw [dCost_eq h0, dCost_eq (by simp)]
    simp
    omega
  | case8 d n st x hs hlen r ih =>
    obtain ⟨h1, h2⟩ := scan_cost hs
    have ih := ih (by simp)
    rw [dCost_eq (d := { d with state := .running, buf := (d.buf.drop x).drop 1 }) (by simp)] at ih
    rw [dCost_eq h0]
    simp only [r]
    simp at ih
    simp
    omega
  | case9 d n st x hs hx =>
    obtain ⟨h1, h2⟩ := scan_cost hs
    rw [dCost_eq h0, dCost_eq (scan_unfinished hs h0)]
    simp
    omega
  | case10 d n st x hs hx s hp =>
    obtain ⟨h1, h2⟩ := scan_cost hs
    have e := cost_pending hp
    have e' := bytes_pending hp
    rw [dCost_eq h0, dCost_eq (scan_unfinished hs h0)]
    simp only [e, e']
    omega
  | case11 d n st x hs hx s hp =>
    obtain ⟨h1, h2⟩ := scan_cost hs
    have e := congrArg Spec.packets (evs_ended hp)
    have e' := bytes_none hp
    simp only [List.nil_append] at e
    rw [dCost_eq h0, dCost_eq (by simp)]
    simp only [e, e', List.length_nil]
    omega
  | case12 d n st x hs hx b s hp r ih =>
    obtain ⟨h1, h2⟩ := scan_cost hs
    have hu := scan_unfinished hs h0
    have e := cost_some hp
    have e' := congrArg List.length (bytes_some hp)
    have ih := ih hu
    rw [dCost_eq (d := { d with source := s, state := st, buf := d.buf ++ b }) hu] at ih
    rw [dCost_eq h0]
    simp only [r]
    simp only [List.length_append] at ih e'
    omega

theorem poll_paid (d : DStream) : d.pollNextC.1 + dCost d.pollNextC.2.2 ≤ dCost d + 1 := by
  unfold DStream.pollNextC
  split
  · simp
  · exact loop_paid d (by assumption)

theorem prepend_evs {p q : Prep Bytes} {b : Bytes} (h : p.prepend b = some q) : packets q.evs = packets p.evs + 1 := by
  unfold Prep.prepend at h
  split at h
  · cases h
  · rename_i hn
    cases h
    simp at hn
    simp [Prep.evs, hn, packets]

theorem complete_paid {d d' : DStream} {ok : Bool} (h : d.complete = .ok (ok, d')) : dCost d' ≤ dCost d := by
  unfold DStream.complete at h
  split at h
  · cases h; simp [dCost]
  · split at h
    · cases h
    · split at h
      · split at h
        · rename_i hf _ _ _ hp
          cases h
          have hf : d.state = .finished := by simpa using hf
          have e := prepend_evs hp
          rw [dCost_eq (by simp)]
          simp [dCost, hf, bytes_prepend hp, e]
          omega
        · cases h
      · cases h; simp [dCost]

theorem toDecode_reply (r : Reply) (a : After L) (w : World L S U) :
    toDecode ((Task.reply r a, w) : State L S U) ≤ w.reader.bytes.length + packets w.reader.evs := by
  unfold Task.reply
  split <;> simp [toDecode]

theorem toDecode_dispatch (w : World L S U) (line : Bytes) :
    toDecode (Task.dispatch C w line) ≤ w.reader.bytes.length + packets w.reader.evs := by
  unfold Task.dispatch
  rcases (Command.parse line : Except ParseErr (Command L)) with e | c
  · exact toDecode_reply _ _ _
  · cases c with
    | mail f ps =>
      simp only
      split
      · exact toDecode_reply _ _ _
      · exact Nat.le_refl _
    | rcpt t ps =>
      cases w.mail with
      | some m => exact Nat.le_refl _
      | none => exact toDecode_reply _ _ _
    | data =>
      cases w.mail with
      | some m =>
        simp only
        split
        · exact toDecode_reply _ _ _
        · exact Nat.le_refl _
      | none => exact toDecode_reply _ _ _
    | _ => exact toDecode_reply _ _ _

theorem decode_step (x : State L S U) : decodeWork x + toDecode (Task.step C x) ≤ toDecode x + pollCount x := by
  obtain ⟨pc, w⟩ := x
  cases pc with
  | read buf =>
    rcases hp : w.reader.pollNext with ⟨_ | _, s⟩
    · rename_i o
      cases o with
      | none =>
        simp only [Task.step, hp, decodeWork]
        cases s.prepend buf <;> simp [toDecode]
      | some pkt =>
        have e := cost_some hp
        have e' := congrArg List.length (bytes_some hp)
        simp only [List.length_append] at e'
        simp only [Task.step, hp, decodeWork]
        cases hf : findCrlf (buf ++ pkt) with
        | none =>
          simp only [toDecode, List.length_append]
          omega
        | some pos =>
          simp only
          cases hq : s.prepend ((buf ++ pkt).drop (pos + 2)) with
          | none => simp [toDecode]
          | some s' =>
            have hl := findCrlf_lt hf
            have h3 := toDecode_dispatch (C := C) { w with reader := s', trace := w.trace ++ [.line ((buf ++ pkt).take (pos + 2))] }
              ((buf ++ pkt).take (pos + 2))
            have e1 := prepend_evs hq
            have e2 := congrArg List.length (bytes_prepend hq)
            simp only [e1, e2, List.length_append, List.length_drop] at h3
            simp only [List.length_append] at hl
            refine Nat.le_trans (Nat.add_le_add_left h3 _) ?_
            simp only [toDecode]
            omega
    · have e := cost_pending hp
      have e' := bytes_pending hp
      simp only [Task.step, hp, decodeWork, toDecode, e, e']
      omega
  | send r left a =>
    cases left with
    | nil =>
      have e := flush_reader w
      simp only [Task.step, decodeWork]
      rcases hq : Server.flush w with ⟨_ | _ | _ | _, w'⟩ <;> rw [hq] at e <;> simp only at e
      · cases a <;> simp [resume, toDecode, DStream.new, e, dCost]
      all_goals simp [toDecode]
    | cons t ts =>
      simp only [Task.step, decodeWork]
      split
      · simp [toDecode]
      · rename_i l _
        have e := writeLine_reader l w
        rcases hq : Server.writeLine l w with ⟨_ | _ | _ | _, w'⟩ <;> rw [hq] at e <;> simp only at e
        · simp [toDecode, e]
        all_goals simp [toDecode]
  | newMail f => simp [decodeWork, Task.step, toDecode]
  | filterFrom f =>
    simp only [Task.step, decodeWork]
    rcases hq : C.filterFrom w.cfg w.conn f with ⟨_ | r, f', s, u⟩ <;> simpa [toDecode, pollCount] using toDecode_reply _ _ _
  | filterTo t m =>
    simp only [Task.step, decodeWork]
    rcases hq : C.filterTo w.cfg w.conn t m with ⟨_ | r, t', m', s, u⟩ <;> simpa [toDecode, pollCount] using toDecode_reply _ _ _
  | filterData m =>
    simp only [Task.step, decodeWork]
    rcases hq : C.filterData w.cfg w.conn m with ⟨_ | r, m', s, u⟩ <;> simpa [toDecode, pollCount] using toDecode_reply _ _ _
  | handle act hh d =>
    simp only [Task.step, decodeWork, pollCount]
    cases act hh with
    | poll =>
      have h1 := poll_paid d
      rw [(c97_counters d d.source).1] at h1
      simpa [toDecode] using h1
    | complete =>
      simp only
      cases hq : d.complete with
      | error p => simp [toDecode]
      | ok r => simpa [toDecode] using complete_paid hq
    | done dec s u =>
      simp only
      split
      · refine Nat.le_trans (Nat.add_le_add_left (toDecode_reply _ _ _) _) ?_
        simp only [toDecode, dCost]
        omega
      · simp [toDecode]
  | over r => simp [decodeWork, Task.step]

/-! ### Whole lines -/

theorem wholeLines_nil : WholeLines [] := .inl rfl

theorem wholeLines_append {a b : Bytes} (ha : WholeLines a) (hb : WholeLines b) : WholeLines (a ++ b) := by
  rcases hb with rfl | ⟨t, rfl⟩
  · simpa using ha
  · exact .inr ⟨a ++ t, by simp⟩

/-- What comes behind a byte that is not a carriage return. -/
theorem wholeLines_behind {a t : Bytes} {c : UInt8} (hc : c ≠ cCR) (h : WholeLines (a ++ c :: t)) : WholeLines t := by
  rcases h with h | ⟨l, h⟩
  · simp at h
  · rcases List.append_eq_append_iff.1 h with ⟨m, rfl, e⟩ | ⟨m, rfl, e⟩
    · -- the CRLF begins before the byte
      cases m with
      | nil => simp at e; exact absurd e.1.symm hc
      | cons x m =>
        cases m with
        | nil => simp [crlf] at e; exact .inl e.2.2
        | cons y m => simp [crlf] at e
    · cases m with
      | nil => simp [crlf] at e; exact absurd e.1 hc
      | cons x m => simp at e; exact .inr ⟨m, e.2.symm⟩

theorem wholeLines_drop {s : Bytes} {n : Nat} (h : WholeLines s) (hn : n < s.length) (hc : s[n] ≠ cCR) : WholeLines (s.drop (n + 1)) := by
  have e : s = s.take n ++ s[n] :: s.drop (n + 1) := by simp
  rw [e] at h
  exact wholeLines_behind hc h

theorem wholeLines_last {s : Bytes} (h : WholeLines s) (hn : s ≠ []) : 2 ≤ s.length ∧ s[s.length - 1]? = some cLF := by
  rcases h with h | ⟨t, rfl⟩
  · exact absurd h hn
  · constructor
    · simp
    · rw [List.getElem?_append_right (by simp)]; simp

theorem windows_split {st st' : DState} {idx : Nat} {buf : Bytes} {sp : BufSplit} (h : scanWindows st idx buf = (st', sp)) :
    (∀ n, sp = .eof n → ∃ k, n = idx + k ∧ buf[k]? = some cDOT ∧ buf[k + 1]? = some cCR ∧ buf[k + 2]? = some cLF) ∧
    (∀ n, sp = .escape n → ∃ k, n = idx + k ∧ buf[k]? = some cDOT) ∧ (∀ n, sp ≠ .unknown n) := by
  fun_induction scanWindows st idx buf with
  | case1 st idx w1 w2 rest ih =>
    obtain ⟨h1, h2, h3⟩ := ih h
    refine ⟨fun n e => ?_, fun n e => ?_, h3⟩
    · obtain ⟨k, e1, e2⟩ := h1 n e; exact ⟨k + 1, by omega, by simpa using e2⟩
    · obtain ⟨k, e1, e2⟩ := h2 n e; exact ⟨k + 1, by omega, by simpa using e2⟩
  | case2 st idx w0 w1 w2 rest g1 g2 ih =>
    obtain ⟨h1, h2, h3⟩ := ih h
    refine ⟨fun n e => ?_, fun n e => ?_, h3⟩
    · obtain ⟨k, e1, e2⟩ := h1 n e; exact ⟨k + 1, by omega, by simpa using e2⟩
    · obtain ⟨k, e1, e2⟩ := h2 n e; exact ⟨k + 1, by omega, by simpa using e2⟩
  | case3 st idx w0 w1 w2 rest g1 g2 g3 g4 =>
    cases h
    exact ⟨fun n e => by cases e; exact ⟨0, by simp [g3.2, g4.1, g4.2]⟩, fun n e => (by cases e), fun n e => (by cases e)⟩
  | case4 st idx w0 w1 w2 rest g1 g2 g3 g4 =>
    cases h
    exact ⟨fun n e => (by cases e), fun n e => by cases e; exact ⟨0, by simp [g3.2]⟩, fun n e => (by cases e)⟩
  | case5 st idx w0 w1 w2 rest g1 g2 g3 ih =>
    obtain ⟨h1, h2, h3⟩ := ih h
    refine ⟨fun n e => ?_, fun n e => ?_, h3⟩
    · obtain ⟨k, e1, e2⟩ := h1 n e; exact ⟨k + 1, by omega, by simpa using e2⟩
    · obtain ⟨k, e1, e2⟩ := h2 n e; exact ⟨k + 1, by omega, by simpa using e2⟩
  | case6 =>
    cases h
    exact ⟨fun n e => (by cases e), fun n e => (by cases e), fun n e => (by cases e)⟩

theorem whole_eof {st st' : DState} {buf : Bytes} {x : Nat} (hw : WholeLines buf) (h : scanBuf st buf = (st', .eof x)) :
    WholeLines ((buf.drop x).drop 3) := by
  unfold scanBuf at h
  split at h
  · exact absurd (congrArg Prod.snd h) (Server.scanLast_ne.1 x)
  · obtain ⟨k, e, _, _, e2⟩ := (windows_split h).1 x rfl
    obtain ⟨hl, e2⟩ := List.getElem?_eq_some_iff.1 e2
    rw [List.drop_drop, show x + 3 = k + 2 + 1 by omega]
    exact wholeLines_drop hw hl (by rw [e2]; decide)

theorem whole_escape {st st' : DState} {buf : Bytes} {x : Nat} (hw : WholeLines buf) (h : scanBuf st buf = (st', .escape x)) :
    WholeLines ((buf.drop x).drop 1) := by
  have key : buf[x]? = some cDOT := by
    unfold scanBuf at h
    split at h
    · unfold scanLast at h
      grind
    · obtain ⟨k, e, e2⟩ := (windows_split h).2.1 x rfl
      rw [show x = k by omega]; exact e2
  obtain ⟨hl, e2⟩ := List.getElem?_eq_some_iff.1 key
  rw [List.drop_drop]
  exact wholeLines_drop hw hl (by rw [e2]; decide)

theorem whole_unknown {st st' : DState} {buf : Bytes} {x : Nat} (hw : WholeLines buf) (h : scanBuf st buf = (st', .unknown x)) : False := by
  by_cases hb : buf = []
  · subst hb; simp [scanBuf, scanWindows, scanLast] at h
  · obtain ⟨h1, h2⟩ := wholeLines_last hw hb
    unfold scanBuf at h
    split at h
    · unfold scanLast at h
      grind
    · exact (windows_split h).2.2 x rfl

/-- Every packet that is still to come, and what is pushed back, is made of whole lines. -/
structure Whole (p : Prep Bytes) : Prop where
  src : InLines p.src
  pre : ∀ b, p.pre = some b → WholeLines b

theorem whole_next {p q : Prep Bytes} {o} (h : Whole p) (e : p.pollNext = (o, q)) : Whole q ∧ ∀ b, o = .ready (some b) → WholeLines b := by
  unfold Prep.pollNext at e
  cases hp : p.pre with
  | some a =>
    simp [hp] at e
    obtain ⟨rfl, rfl⟩ := e
    exact ⟨⟨h.src, by simp⟩, fun b e => by cases e; exact h.pre _ hp⟩
  | none =>
    cases hs : p.src with
    | nil => simp [hp, hs] at e; obtain ⟨rfl, rfl⟩ := e; exact ⟨⟨by simpa [hs] using h.src, by simp⟩, by simp⟩
    | cons v r =>
      have hsrc := h.src
      rw [hs] at hsrc
      cases v with
      | pending =>
        simp [hp, hs] at e; obtain ⟨rfl, rfl⟩ := e
        exact ⟨⟨fun b hb => hsrc b (by simp [hb]), by simp⟩, by simp⟩
      | pkt a =>
        simp [hp, hs] at e; obtain ⟨rfl, rfl⟩ := e
        exact ⟨⟨fun b hb => hsrc b (by simp [hb]), by simp⟩, fun b e => by cases e; exact hsrc _ (by simp)⟩

theorem whole_prepend {p q : Prep Bytes} {b : Bytes} (h : Whole p) (hb : WholeLines b) (e : p.prepend b = some q) : Whole q := by
  unfold Prep.prepend at e
  split at e
  · cases e
  · cases e; exact ⟨h.src, fun b e => by cases e; exact hb⟩

structure DWhole (d : DStream) : Prop where
  source : Whole d.source
  buf : WholeLines d.buf

theorem loop_whole (d : DStream) (h : DWhole d) : DWhole d.pollLoop.2 := by
  fun_induction DStream.pollLoop d with
  | case1 => exact ⟨h.source, wholeLines_nil⟩
  | case2 d st hs hlen s hp => exact ⟨(whole_next h.source hp).1, h.buf⟩
  | case3 d st hs hlen s hp => exact ⟨(whole_next h.source hp).1, h.buf⟩
  | case4 d st hs hlen b s hp ih => exact ih ⟨(whole_next h.source hp).1, wholeLines_append h.buf ((whole_next h.source hp).2 _ rfl)⟩
  | case5 d st x hs res d' hlen => exact ⟨h.source, whole_eof h.buf hs⟩
  | case6 d st x hs res d' hlen => exact ⟨h.source, whole_eof h.buf hs⟩
  | case7 d st x hs hlen => exact ⟨h.source, whole_escape h.buf hs⟩
  | case8 d st x hs hlen ih => exact ih ⟨h.source, whole_escape h.buf hs⟩
  | case9 d st x hs hx => exact (whole_unknown h.buf hs).elim
  | case10 d st x hs hx s hp => exact (whole_unknown h.buf hs).elim
  | case11 d st x hs hx s hp => exact (whole_unknown h.buf hs).elim
  | case12 d st x hs hx b s hp ih => exact (whole_unknown h.buf hs).elim

theorem poll_whole (d : DStream) (h : DWhole d) : DWhole d.pollNext.2 := by
  unfold DStream.pollNext
  split
  · exact h
  · exact loop_whole d h

theorem complete_whole {d d' : DStream} {ok : Bool} (hd : DWhole d) (h : d.complete = .ok (ok, d')) : DWhole d' := by
  unfold DStream.complete at h
  split at h
  · cases h; exact ⟨hd.source, hd.buf⟩
  · split at h
    · cases h
    · split at h
      · split at h
        · rename_i hp
          cases h
          exact ⟨whole_prepend hd.source hd.buf hp, wholeLines_nil⟩
        · cases h
      · cases h; exact ⟨hd.source, hd.buf⟩

/-- Nothing but whole lines is held or to come. -/
def AllWhole (x : State L S U) : Prop :=
  match x.1 with
  | .over _ => True
  | .read buf => buf = [] ∧ Whole x.2.reader
  | .handle _ _ d => DWhole d
  | _ => Whole x.2.reader

theorem allWhole_reply (r : Reply) (a : After L) (w : World L S U) (h : Whole w.reader) : AllWhole ((Task.reply r a, w) : State L S U) := by
  unfold Task.reply
  split
  · trivial
  · exact h

theorem allWhole_dispatch (w : World L S U) (line : Bytes) (h : Whole w.reader) : AllWhole (Task.dispatch C w line) := by
  unfold Task.dispatch
  rcases (Command.parse line : Except ParseErr (Command L)) with e | c
  · exact allWhole_reply _ _ _ h
  · cases c with
    | mail f ps =>
      simp only
      split
      · exact allWhole_reply _ _ _ h
      · exact h
    | rcpt t ps =>
      cases w.mail with
      | some m => exact h
      | none => exact allWhole_reply _ _ _ h
    | data =>
      cases w.mail with
      | some m =>
        simp only
        split
        · exact allWhole_reply _ _ _ h
        · exact h
      | none => exact allWhole_reply _ _ _ h
    | _ => exact allWhole_reply _ _ _ h

theorem whole_found {b : Bytes} (h : WholeLines b) (hn : findCrlf b = none) : b = [] := by
  rcases h with h | ⟨t, rfl⟩
  · exact h
  · rcases crlf_split (t ++ crlf) with h | ⟨a, r, ha, he⟩
    · exact absurd (List.infix_iff_suffix_prefix.2 ⟨_, List.suffix_append t crlf, List.prefix_refl _⟩) h
    · rw [he, findCrlf_some ha] at hn; cases hn

theorem whole_rest {b : Bytes} {pos : Nat} (h : WholeLines b) (hf : findCrlf b = some pos) : WholeLines (b.drop (pos + 2)) := by
  rcases crlf_split b with hn | ⟨a, r, ha, he⟩
  · rw [findCrlf_none hn] at hf; cases hf
  · rw [he, findCrlf_some ha] at hf
    cases hf
    rw [he, List.drop_left' (by simp)]
    rw [he, show a ++ crlf ++ r = (a ++ [cCR]) ++ cLF :: r by simp] at h
    exact wholeLines_behind (by decide) h

theorem allWhole_step (x : State L S U) (h : AllWhole x) : AllWhole (Task.step C x) := by
  obtain ⟨pc, w⟩ := x
  cases pc with
  | read buf =>
    obtain ⟨rfl, h⟩ : buf = [] ∧ Whole w.reader := h
    rcases hp : w.reader.pollNext with ⟨_ | _, s⟩
    · rename_i o
      obtain ⟨h1, h2⟩ := whole_next h hp
      cases o with
      | none =>
        simp only [Task.step, hp]
        cases s.prepend [] <;> trivial
      | some pkt =>
        have h2 := h2 pkt rfl
        simp only [Task.step, hp, List.nil_append]
        cases hf : findCrlf pkt with
        | none => exact ⟨whole_found h2 hf, h1⟩
        | some pos =>
          simp only
          cases hq : s.prepend (pkt.drop (pos + 2)) with
          | none => trivial
          | some s' => exact allWhole_dispatch _ _ (whole_prepend h1 (whole_rest h2 hf) hq)
    · simp only [Task.step, hp]
      exact ⟨rfl, (whole_next h hp).1⟩
  | send r left a =>
    have h : Whole w.reader := h
    cases left with
    | nil =>
      have e := flush_reader w
      simp only [Task.step]
      rcases hq : Server.flush w with ⟨_ | _ | _ | _, w'⟩ <;> rw [hq] at e
      · have h' : Whole w'.reader := by rw [show w'.reader = w.reader from e]; exact h
        cases a with
        | next => exact ⟨rfl, h'⟩
        | setMail m => exact ⟨rfl, h'⟩
        | handle m => exact ⟨h', wholeLines_nil⟩
      all_goals trivial
    | cons t ts =>
      simp only [Task.step]
      split
      · trivial
      · rename_i l _
        have e := writeLine_reader l w
        rcases hq : Server.writeLine l w with ⟨_ | _ | _ | _, w'⟩ <;> rw [hq] at e
        · show Whole w'.reader
          rw [show w'.reader = w.reader from e]; exact h
        all_goals trivial
  | newMail f => exact h
  | filterFrom f =>
    simp only [Task.step]
    rcases hq : C.filterFrom w.cfg w.conn f with ⟨_ | r, f', s, u⟩ <;> exact allWhole_reply _ _ _ h
  | filterTo t m =>
    simp only [Task.step]
    rcases hq : C.filterTo w.cfg w.conn t m with ⟨_ | r, t', m', s, u⟩ <;> exact allWhole_reply _ _ _ h
  | filterData m =>
    simp only [Task.step]
    rcases hq : C.filterData w.cfg w.conn m with ⟨_ | r, m', s, u⟩ <;> exact allWhole_reply _ _ _ h
  | handle act hh d =>
    have h : DWhole d := h
    simp only [Task.step]
    cases act hh with
    | poll => exact poll_whole d h
    | complete =>
      simp only
      cases hq : d.complete with
      | error p => trivial
      | ok r => exact complete_whole h hq
    | done dec s u =>
      simp only
      split
      · exact allWhole_reply _ _ _ h.source
      · trivial
  | over r => trivial

theorem whole_search (x : State L S U) (h : AllWhole x) : searchWork x + left (Task.step C x) ≤ left x := by
  have h0 := left_step (C := C) x
  unfold searchWork
  split
  · rename_i buf w
    obtain ⟨rfl, h⟩ : buf = [] ∧ Whole w.reader := h
    split
    · rename_i pkt s hp
      have h2 := (whole_next h hp).2 pkt rfl
      simp only [List.nil_append]
      cases hf : findCrlf pkt with
      | some pos =>
        have h3 := left_line (C := C) (buf := []) hp hf
        simp only [findCrlfWork, hf]
        omega
      | none =>
        have := whole_found h2 hf
        subst this
        simpa [findCrlfWork, findCrlf] using h0
    · omega
  · omega

/-! ### Which lines are parsed -/

theorem linesRead_append (a b : List (Ev L)) : linesRead (a ++ b) = linesRead a ++ linesRead b := by
  induction a with
  | nil => rfl
  | cons e a ih => cases e <;> simp [linesRead, ih]

/-- What parsing the lines of a history costs. -/
def parsed (evs : List (Ev L)) : Nat := ((linesRead evs).map fun l => (ParseWork.commandParse l : Nat × Except ParseErr (Command L)).1).sum

theorem parsed_append (a b : List (Ev L)) : parsed (a ++ b) = parsed a + parsed b := by
  simp [parsed, linesRead_append]

theorem parsed_dispatch (w : World L S U) (l : Bytes) : (Task.dispatch C w l).2.trace = w.trace := (grows_dispatch w l).1

theorem prepend_ok {p : Prep Bytes} (b : Bytes) (h : p.pre = none) : ∃ q, p.prepend b = some q := by simp [Prep.prepend, h]

theorem parsed_step (x : State L S U) : parsed (Task.step C x).2.trace = parsed x.2.trace + parseWork x := by
  obtain ⟨pc, w⟩ := x
  cases pc with
  | read buf =>
    rcases hp : w.reader.pollNext with ⟨_ | _, s⟩
    · rename_i o
      cases o with
      | none =>
        simp only [Task.step, hp, parseWork]
        cases s.prepend buf <;> rfl
      | some pkt =>
        simp only [Task.step, hp, parseWork]
        cases hf : findCrlf (buf ++ pkt) with
        | none => rfl
        | some pos =>
          obtain ⟨s', hq⟩ := prepend_ok ((buf ++ pkt).drop (pos + 2)) (next_some hp).1
          simp only [hq]
          rw [parsed_dispatch, parsed_append]
          simp [parsed, linesRead]
    · simp only [Task.step, hp, parseWork]; rfl
  | send r left a =>
    cases left with
    | nil =>
      simp only [Task.step, parseWork]
      rcases Server.flush_cases w with ⟨wr, h, ho⟩ | ⟨wr, h, ho⟩ <;> simp only [h]
      · cases a <;> simp [resume, parsed_append] <;> simp [parsed, linesRead]
      · simp [parsed_append]; simp [parsed, linesRead]
    | cons t ts =>
      simp only [Task.step, parseWork]
      cases ReplyLine.build r.1 (if ts.isEmpty then .yes else .no) t with
      | error e => rfl
      | ok l =>
        simp only
        rcases Server.writeLine_cases l w with ⟨wr, h, ho⟩ | ⟨wr, h, ho⟩ <;> simp only [h]
        · rfl
        · simp [parsed_append]; simp [parsed, linesRead]
  | newMail f => simp [Task.step, parseWork, parsed_append]; simp [parsed, linesRead]
  | filterFrom f => simp only [Task.step]; split <;> simp [parseWork, parsed_append] <;> simp [parsed, linesRead]
  | filterTo t m => simp only [Task.step]; split <;> simp [parseWork, parsed_append] <;> simp [parsed, linesRead]
  | filterData m => simp only [Task.step]; split <;> simp [parseWork, parsed_append] <;> simp [parsed, linesRead]
  | handle act h d =>
    simp only [Task.step, parseWork]
    split
    · rfl
    · split <;> rfl
    · split
      · simp [parsed_append]; simp [parsed, linesRead]
      · rfl
  | over r => rfl

end TaskWork
end Verif
