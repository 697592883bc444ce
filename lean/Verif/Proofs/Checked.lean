import Verif.Model.Checked
import Verif.Props.Usize
import Verif.Props.SliceParse
import Verif.Spec.Checked
import Verif.Proofs.Task
/-
The checked operations of Model/Checked.lean do what those of the other models do.
-/
namespace Verif
namespace Checked
variable {M : Machine}

theorem top_cap (hM : 16 ≤ M.bits) : M.top = 2 * (M.cap + 1) ∧ 2 ^ 15 ≤ M.cap + 1 := by
  have h2 : 2 ^ 15 ≤ 2 ^ (M.bits - 1) := Nat.pow_le_pow_right (by omega) (by omega)
  unfold Machine.top Machine.cap
  have h1 : 2 ^ M.bits = 2 ^ (M.bits - 1) * 2 := by
    rw [← Nat.pow_succ]
    congr 1; omega
  omega

theorem add_ok {x y : Nat} (h : x + y < M.top) : add M x y = .ok (x + y) := by
  unfold add Usize.add Usize.fit
  rw [if_pos (by omega)]
  have : ((x : Int) + y).toNat = x + y := by omega
  rw [this]

theorem sub_ok {x y : Nat} (h : x < M.top) (hy : y ≤ x) : sub M x y = .ok (x - y) := by
  unfold sub Usize.sub Usize.fit
  rw [if_pos (by omega)]
  have : ((x : Int) - y).toNat = x - y := by omega
  rw [this]

theorem index_ok {s : Bytes} {i : Nat} (h : i < s.length) : index s i = .ok s[i] := by
  unfold index
  rw [List.getElem?_eq_getElem h]

theorem windows_cons3 (a b c : UInt8) (s : Bytes) : windows 3 (a :: b :: c :: s) = [a, b, c] :: windows 3 (b :: c :: s) := by
  rw [windows, if_neg (by simp)]
  rfl

theorem windows_cons2 (a b : UInt8) (s : Bytes) : windows 2 (a :: b :: s) = [a, b] :: windows 2 (b :: s) := by
  rw [windows, if_neg (by simp)]
  rfl

theorem scan_ok (st : DState) (idx : Nat) (buf : Bytes) (h : idx + buf.length < M.top) :
    scan M st idx (windows 3 buf) = .ok (scanWindows st idx buf) := by
  fun_induction scanWindows st idx buf with
  | case1 st idx w1 w2 rest ih =>
    rw [windows_cons3, scan, add_ok (by simp at h; omega)]
    simp only [bind, Except.bind, index, List.getElem?_cons_zero, if_true]
    exact ih (by simp at h ⊢; omega)
  | case2 st idx w0 w1 w2 rest h1 h2 ih =>
    rw [windows_cons3, scan, add_ok (by simp at h; omega)]
    simp only [bind, Except.bind, index, List.getElem?_cons_zero, if_neg h1, if_pos h2]
    exact ih (by simp at h ⊢; omega)
  | case3 st idx w0 w1 w2 rest h1 h2 h3 h4 =>
    rw [windows_cons3, scan, add_ok (by simp at h; omega)]
    have h5 : st = .crLfPassed ∧ w0 = cDOT ∧ [w0, w1, w2] = b!".\r\n" := ⟨h3.1, h3.2, by rw [h3.2, h4.1, h4.2]⟩
    simp only [bind, Except.bind, index, List.getElem?_cons_zero, if_neg h1, if_neg h2, if_pos h5]
  | case4 st idx w0 w1 w2 rest h1 h2 h3 h4 =>
    rw [windows_cons3, scan, add_ok (by simp at h; omega)]
    have h5 : ¬ (st = .crLfPassed ∧ w0 = cDOT ∧ [w0, w1, w2] = b!".\r\n") := by
      rintro ⟨_, _, e⟩
      have e : [w0, w1, w2] = [cDOT, cCR, cLF] := e
      simp at e
      exact h4 e.2
    simp only [bind, Except.bind, index, List.getElem?_cons_zero, if_neg h1, if_neg h2, if_neg h5, if_pos h3]
  | case5 st idx w0 w1 w2 rest h1 h2 h3 ih =>
    rw [windows_cons3, scan, add_ok (by simp at h; omega)]
    have h5 : ¬ (st = .crLfPassed ∧ w0 = cDOT ∧ [w0, w1, w2] = b!".\r\n") := fun e => h3 ⟨e.1, e.2.1⟩
    simp only [bind, Except.bind, index, List.getElem?_cons_zero, if_neg h1, if_neg h2, if_neg h5, if_neg h3]
    exact ih (by simp at h ⊢; omega)
  | case6 buf st idx hn =>
    have : windows 3 buf = [] := by
      match buf, hn with
      | [], _ => rfl
      | [a], _ => rfl
      | [a, b], _ => rfl
      | a :: b :: c :: r, hn => exact absurd rfl (hn a b c r)
    rw [this]
    rfl

theorem look_ok (st : DState) (buf : Bytes) (h : buf.length < M.top) : look M st buf = .ok (scanLast st buf) := by
  unfold look scanLast
  by_cases h2 : 2 ≤ buf.length
  · simp only [ge_iff_le, if_pos h2, dif_pos h2, sub_ok h h2, sub_ok h (show 1 ≤ buf.length by omega), bind, Except.bind]
    rw [index_ok (by omega), index_ok (by omega)]
    simp only
    repeat' split
    all_goals first | rfl | contradiction
  · by_cases h1 : buf.length = 1
    · simp only [ge_iff_le, if_neg h2, dif_neg h2, if_pos h1, dif_pos h1, sub_ok h (show 1 ≤ buf.length by omega), bind, Except.bind]
      rw [index_ok (by omega)]
      simp only
      repeat' split
      all_goals first | rfl | contradiction
    · simp only [ge_iff_le, if_neg h2, dif_neg h2, if_neg h1, dif_neg h1]

/-- The packets still to come leave room for two bytes more. -/
structure Small (M : Machine) (p : Prep Bytes) : Prop where
  src : ∀ b, SrcEv.pkt b ∈ p.src → b.length + 2 ≤ M.cap
  pre : ∀ b, p.pre = some b → b.length + 2 ≤ M.cap

theorem small_next {p q : Prep Bytes} {a} (h : Small M p) (e : p.pollNext = (a, q)) :
    Small M q ∧ ∀ b, a = .ready (some b) → b.length + 2 ≤ M.cap := by
  obtain ⟨src, pre, n⟩ := p
  cases pre with
  | some i =>
    simp only [Prep.pollNext] at e
    cases e
    exact ⟨⟨h.src, fun b hb => by cases hb⟩, fun b hb => by cases hb; exact h.pre _ rfl⟩
  | none =>
    match src with
    | [] =>
      simp only [Prep.pollNext] at e
      cases e
      exact ⟨⟨h.src, h.pre⟩, fun b hb => by cases hb⟩
    | .pkt i :: r =>
      simp only [Prep.pollNext] at e
      cases e
      exact ⟨⟨fun b hb => h.src b (.tail _ hb), h.pre⟩, fun b hb => by cases hb; exact h.src _ (.head _)⟩
    | .pending :: r =>
      simp only [Prep.pollNext] at e
      cases e
      exact ⟨⟨fun b hb => h.src b (.tail _ hb), h.pre⟩, fun b hb => by cases hb⟩

theorem small_prepend {p q : Prep Bytes} {b : Bytes} (h : Small M p) (hb : b.length + 2 ≤ M.cap) (e : p.prepend b = some q) : Small M q := by
  unfold Prep.prepend at e
  split at e
  · cases e
  · cases e
    exact ⟨h.src, fun c hc => by cases hc; exact hb⟩

/-- A message stream whose buffer can exist. -/
structure DSmall (M : Machine) (d : DStream) : Prop where
  source : Small M d.source
  buf : d.buf.length ≤ M.cap
  fin : d.state = .finished → d.buf.length + 2 ≤ M.cap

theorem scanWindows_eof {st st' : DState} {idx n : Nat} {buf : Bytes} (h : scanWindows st idx buf = (st', .eof n)) :
    n + 3 ≤ idx + buf.length := by
  fun_induction scanWindows st idx buf with
  | case1 st idx w1 w2 rest ih => have := ih h; simp at this ⊢; omega
  | case2 st idx w0 w1 w2 rest h1 h2 ih => have := ih h; simp at this ⊢; omega
  | case3 => cases h; simp
  | case4 => cases h
  | case5 st idx w0 w1 w2 rest h1 h2 h3 ih => have := ih h; simp at this ⊢; omega
  | case6 => cases h

theorem scanBuf_eof {st st' : DState} {n : Nat} {buf : Bytes} (h : scanBuf st buf = (st', .eof n)) : n + 3 ≤ buf.length := by
  unfold scanBuf at h
  split at h
  · unfold scanLast at h
    grind
  · have := scanWindows_eof h
    omega

theorem scanBuf_unknown {st st' : DState} {n : Nat} {buf : Bytes} (h : scanBuf st buf = (st', .unknown n)) :
    n ≤ buf.length ∧ buf.length ≤ n + 2 ∧ st' ≠ .finished := by
  unfold scanBuf at h
  split at h
  · unfold scanLast at h
    grind
  · rename_i hne
    exfalso
    have : ∀ st idx, scanWindows st idx buf = (st', .unknown n) → False := by
      clear h hne
      intro st idx hw
      fun_induction scanWindows st idx buf <;> simp_all
    exact this st 0 h

theorem turn_eq (d : DStream) (h : d.buf.length < M.top) :
    turn M d = act M { d with state := (scanBuf d.state d.buf).1 } (scanBuf d.state d.buf).2 := by
  unfold turn scanBuf
  rw [scan_ok _ _ _ (by omega)]
  rcases scanWindows d.state 0 d.buf with ⟨st, _ | n | n | n⟩
  · simp only [bind, Except.bind, if_true, look_ok st _ h]
  all_goals rfl

theorem pollLoop_eq (d : DStream) : pollLoop M d =
    match turn M d with
    | .error f => .error f
    | .ok (.ret r d') => .ok (r, d')
    | .ok (.again d') => pollLoop M d' := by
  rw [pollLoop]
  split <;> rename_i e <;> rw [e]

theorem loop_ok (hM : 16 ≤ M.bits) (d : DStream) (h : DSmall M d) :
    pollLoop M d = .ok d.pollLoop ∧ DSmall M d.pollLoop.2 := by
  obtain ⟨hc1, hc2⟩ := top_cap hM
  fun_induction DStream.pollLoop d with
  | case1 d st hs hlen =>
    rw [pollLoop_eq, turn_eq d (by have := h.buf; omega), hs]
    simp only [act, gt_iff_lt, if_pos hlen]
    exact ⟨trivial, h.source, by simp, by simp; omega⟩
  | case2 d st hs hlen s hp =>
    rw [pollLoop_eq, turn_eq d (by have := h.buf; omega), hs]
    simp only [act, gt_iff_lt, if_neg hlen, gather, hp]
    exact ⟨trivial, (small_next h.source hp).1, h.buf, fun _ => by simp at hlen ⊢; rw [hlen]; simp; omega⟩
  | case3 d st hs hlen s hp =>
    rw [pollLoop_eq, turn_eq d (by have := h.buf; omega), hs]
    simp only [act, gt_iff_lt, if_neg hlen, gather, hp]
    exact ⟨trivial, (small_next h.source hp).1, h.buf, by simp⟩
  | case4 d st hs hlen b s hp ih =>
    rw [pollLoop_eq, turn_eq d (by have := h.buf; omega), hs]
    obtain ⟨h1, h2⟩ := small_next h.source hp
    have h2 := h2 b rfl
    have hl : d.buf.length + b.length ≤ M.cap := by omega
    simp only [act, gt_iff_lt, if_neg hlen, gather, hp, unsplit, if_pos hl]
    exact ih ⟨h1, by simp; omega, fun _ => by simp; omega⟩
  | case5 d st x hs res d' hlen =>
    have := scanBuf_eof hs
    have hb := h.buf
    rw [pollLoop_eq, turn_eq d (by omega), hs]
    simp only [act, splitTo, advance, bind, Except.bind, if_pos (show x ≤ d.buf.length by omega)]
    rw [if_pos (by simp; omega)]
    simp only [gt_iff_lt, if_pos (show 0 < (d.buf.take x).length from hlen)]
    exact ⟨rfl, h.source, by simp [d']; omega, fun _ => by simp [d']; omega⟩
  | case6 d st x hs res d' hlen =>
    have := scanBuf_eof hs
    have hb := h.buf
    rw [pollLoop_eq, turn_eq d (by omega), hs]
    simp only [act, splitTo, advance, bind, Except.bind, if_pos (show x ≤ d.buf.length by omega)]
    rw [if_pos (by simp; omega)]
    simp only [gt_iff_lt, if_neg (show ¬ 0 < (d.buf.take x).length from hlen)]
    exact ⟨rfl, h.source, by simp [d']; omega, fun _ => by simp [d']; omega⟩
  | case7 d st x hs hlen =>
    have := scanBuf_escape_lt hs
    have hb := h.buf
    rw [pollLoop_eq, turn_eq d (by omega), hs]
    simp only [act, splitTo, advance, bind, Except.bind, if_pos (show x ≤ d.buf.length by omega)]
    rw [if_pos (by simp; omega)]
    simp only [gt_iff_lt, if_pos hlen]
    exact ⟨trivial, h.source, by simp; omega, by simp⟩
  | case8 d st x hs hlen ih =>
    have := scanBuf_escape_lt hs
    have hb := h.buf
    rw [pollLoop_eq, turn_eq d (by omega), hs]
    simp only [act, splitTo, advance, bind, Except.bind, if_pos (show x ≤ d.buf.length by omega)]
    rw [if_pos (by simp; omega)]
    simp only [gt_iff_lt, if_neg hlen]
    exact ih ⟨h.source, by simp; omega, by simp⟩
  | case9 d st x hs hx =>
    have := scanBuf_unknown hs
    have hb := h.buf
    rw [pollLoop_eq, turn_eq d (by omega), hs]
    simp only [act, splitTo, bind, Except.bind, gt_iff_lt, if_pos hx, if_pos this.1]
    exact ⟨trivial, h.source, by simp; omega, fun e => absurd e this.2.2⟩
  | case10 d st x hs hx s hp =>
    have := scanBuf_unknown hs
    rw [pollLoop_eq, turn_eq d (by have := h.buf; omega), hs]
    simp only [act, gt_iff_lt, if_neg hx, gather, hp]
    exact ⟨trivial, (small_next h.source hp).1, h.buf, fun e => absurd e this.2.2⟩
  | case11 d st x hs hx s hp =>
    rw [pollLoop_eq, turn_eq d (by have := h.buf; omega), hs]
    simp only [act, gt_iff_lt, if_neg hx, gather, hp]
    exact ⟨trivial, (small_next h.source hp).1, h.buf, by simp⟩
  | case12 d st x hs hx b s hp ih =>
    have := scanBuf_unknown hs
    rw [pollLoop_eq, turn_eq d (by have := h.buf; omega), hs]
    obtain ⟨h1, h2⟩ := small_next h.source hp
    have h2 := h2 b rfl
    have hl : d.buf.length + b.length ≤ M.cap := by omega
    simp only [act, gt_iff_lt, if_neg hx, gather, hp, unsplit, if_pos hl]
    exact ih ⟨h1, by simp; omega, fun e => absurd e this.2.2⟩

theorem poll_ok (hM : 16 ≤ M.bits) (d : DStream) (h : DSmall M d) :
    pollNext M d = .ok d.pollNext ∧ DSmall M d.pollNext.2 := by
  unfold pollNext DStream.pollNext
  split
  · exact ⟨rfl, h⟩
  · exact loop_ok hM d h

theorem complete_ok (hM : 16 ≤ M.bits) (d : DStream) (h : DSmall M d) :
    complete d = .ok d.complete ∧ ∀ ok d', d.complete = .ok (ok, d') → DSmall M d' := by
  obtain ⟨hc1, hc2⟩ := top_cap hM
  unfold complete DStream.complete
  split
  · exact ⟨rfl, fun ok d' e => by cases e; exact ⟨h.source, h.buf, by simp⟩⟩
  · split
    · exact ⟨rfl, fun ok d' e => by cases e⟩
    · rename_i hf
      have hf : d.state = .finished := Classical.byContradiction hf
      split
      · simp only [splitOff, Nat.zero_le, if_true, bind, Except.bind, List.drop_zero, List.take_zero]
        cases hp : d.source.prepend d.buf with
        | none => exact ⟨rfl, fun ok d' e => by cases e⟩
        | some s => exact ⟨rfl, fun ok d' e => by cases e; exact ⟨small_prepend h.source (h.fin hf) hp, by simp, by simp⟩⟩
      · exact ⟨rfl, fun ok d' e => by cases e; exact ⟨h.source, h.buf, by simp⟩⟩

/-! ### The sink -/

theorem sinkScan_ok (st : KState) (pos : Nat) (item : Bytes) (h : pos + item.length < M.top) :
    sinkScan M st pos item = .ok (Verif.sinkScan st pos item) := by
  induction item generalizing st pos with
  | nil => rfl
  | cons c rest ih =>
    simp only [List.length_cons] at h
    rw [sinkScan, Verif.sinkScan, add_ok (by omega)]
    simp only [bind, Except.bind]
    repeat' split
    all_goals first | rfl | exact ih _ _ (by omega)

theorem sinkScan_pos {st st' : KState} {pos n : Nat} {item : Bytes} (h : Verif.sinkScan st pos item = (st', some n)) :
    pos ≤ n ∧ n < pos + item.length := by
  induction item generalizing st pos with
  | nil => cases h
  | cons c rest ih =>
    rw [Verif.sinkScan] at h
    simp only [List.length_cons]
    split at h
    · have := ih h; omega
    · split at h
      · have := ih h; omega
      · split at h
        · cases h; omega
        · have := ih h; omega

theorem sendLoop_ok (fuel : Nat) (k : DSink) (item : Bytes) (h : item.length < M.top) :
    sendLoop M fuel k item = .ok (DSink.sendLoop fuel k item) := by
  induction fuel generalizing k item with
  | zero => rfl
  | succ fuel ih =>
    rw [sendLoop, DSink.sendLoop, sinkScan_ok _ _ _ (by omega)]
    simp only [bind, Except.bind]
    rcases hs : Verif.sinkScan k.state 0 item with ⟨st, _ | pos⟩
    · rfl
    · have := sinkScan_pos hs
      simp only [add_ok (show pos + 1 < M.top by omega), sliceTo, if_pos (show pos + 1 ≤ item.length by omega), advance,
        if_pos (show pos ≤ item.length by omega)]
      split
      · exact ih _ _ (by simp; omega)
      · rfl

/-! ### The line reader -/

theorem position_ok (i : Nat) (buf : Bytes) (h : i + buf.length < M.top) :
    position M i (windows 2 buf) = .ok ((findCrlf buf).map (i + ·)) := by
  match buf with
  | [] => rfl
  | [a] => rfl
  | a :: b :: s =>
    rw [windows_cons2, position, findCrlf]
    by_cases hc : a = cCR ∧ b = cLF
    · have : [a, b] = b!"\r\n" := by rw [hc.1, hc.2]
      rw [if_pos this, if_pos hc]; rfl
    · have : [a, b] ≠ b!"\r\n" := by
        intro e
        have e : [a, b] = [cCR, cLF] := e
        simp at e
        exact hc e
      rw [if_neg this, if_neg hc, add_ok (by simp at h; omega)]
      simp only [bind, Except.bind]
      rw [position_ok (i + 1) (b :: s) (by simp at h ⊢; omega)]
      cases findCrlf (b :: s) with
      | none => rfl
      | some n => simp; omega
termination_by buf.length

theorem findCrlf_le {buf : Bytes} {pos : Nat} (h : findCrlf buf = some pos) : pos + 2 ≤ buf.length := by
  fun_induction findCrlf buf generalizing pos with
  | case1 => cases h; simp
  | case2 a b r _ ih =>
    cases hf : findCrlf (b :: r) with
    | none => rw [hf] at h; cases h
    | some n =>
      rw [hf] at h
      cases h
      have := ih hf
      simp at this ⊢; exact this
  | case3 => cases h

/-! ### The session -/
section
open Task Spec
variable {L : IpLib} {S U : Type} {C : Config L S U}

theorem say_ok (hM : 16 ≤ M.bits) {r : Reply} (hr : r.2.length ≤ M.cap) (a : After L) (w : World L S U) :
    say M r a w = .ok (Task.reply r a, w) := by
  obtain ⟨hc1, hc2⟩ := top_cap hM
  have h3 : ReplyLine.maxLen = 506 := rfl
  unfold say reply Task.reply
  rw [c24_usize _ _ _ _ (by omega) (by omega)]
  unfold byteChunks
  rw [if_neg (by omega)]
  rfl

/-- What holds of the state of a session between two steps. `act` comes from the configuration. -/
def Inv (M : Machine) (C : Config L S U) (x : State L S U) : Prop :=
  match x.1 with
  | .over _ => True
  | .read buf => Small M x.2.reader ∧ buf.length ≤ M.cap
  | .handle act _ d => DSmall M d ∧ ∃ s u m, act = C.handleMail s u m
  | _ => Small M x.2.reader

theorem inv_reply (r : Reply) (a : After L) (w : World L S U) (h : Small M w.reader) : Inv M C (Task.reply r a, w) := by
  unfold Task.reply
  split
  · trivial
  · exact h

theorem inv_resume (a : After L) (w : World L S U) (h : Small M w.reader) : Inv M C (Task.resume C w a) := by
  cases a with
  | next => exact ⟨h, by simp⟩
  | setMail m => exact ⟨h, by simp⟩
  | handle m => exact ⟨⟨h, by simp [DStream.new], by simp [DStream.new]⟩, w.cfg, w.conn, m, rfl⟩

theorem flush_reader (w : World L S U) : (Server.flush w).2.reader = w.reader := by
  unfold Server.flush
  split <;> rfl

theorem writeLine_reader (l : ReplyLine) (w : World L S U) : (Server.writeLine l w).2.reader = w.reader := by
  unfold Server.writeLine
  repeat' split
  all_goals rfl

theorem dispatch_ok (hM : 16 ≤ M.bits) (hL : IpLaws L) (hT : TextsExist M.cap C) (ptr : Nat) (w : World L S U) (line : Bytes)
    (h : Small M w.reader) :
    dispatch M C ptr w line = .ok (Task.dispatch C w line) ∧ Inv M C (Task.dispatch C w line) := by
  unfold dispatch Task.dispatch
  rw [c72_command hL]
  rcases (Command.parse line : Except ParseErr (Command L)) with e | c
  · exact ⟨say_ok hM (hT.says .commandUnrecognized _) _ _, inv_reply _ _ _ h⟩
  · have un := fun (w : World L S U) (h : Small M w.reader) =>
      And.intro (say_ok (L := L) hM (hT.says .commandUnimplemented w.cfg) .next w) (inv_reply (C := C) (C.commandUnimplemented w.cfg) .next w h)
    cases c with
    | mail f ps =>
      simp only
      split
      · exact ⟨say_ok hM (hT.says .alreadyInMail _) _ _, inv_reply _ _ _ h⟩
      · exact ⟨rfl, h⟩
    | rcpt t ps =>
      cases w.mail with
      | some m => exact ⟨rfl, h⟩
      | none => exact ⟨say_ok hM (hT.says .rcptBeforeMail _) _ _, inv_reply _ _ _ h⟩
    | data =>
      cases w.mail with
      | some m =>
        simp only
        split
        · exact ⟨say_ok hM (hT.says .dataBeforeRcpt _) _ _, inv_reply _ _ _ h⟩
        · exact ⟨rfl, h⟩
      | none => exact ⟨say_ok hM (hT.says .dataBeforeMail _) _ _, inv_reply _ _ _ h⟩
    | _ => exact un w h

theorem step_ok (hM : 16 ≤ M.bits) (hL : IpLaws L) (hT : TextsExist M.cap C) (place : Bytes → Nat) (x : State L S U) (h : Inv M C x) :
    (step M C place x = .ok (Task.step C x) ∧ Inv M C (Task.step C x)) ∨ (step M C place x = .error .memory ∧ Full M x) := by
  obtain ⟨hc1, hc2⟩ := top_cap hM
  obtain ⟨pc, w⟩ := x
  cases pc with
  | read buf =>
    obtain ⟨hs, hb⟩ := h
    have hs : Small M w.reader := hs
    have hb : buf.length ≤ M.cap := hb
    rcases hp : w.reader.pollNext with ⟨_ | _, s⟩
    · rename_i o
      obtain ⟨h1, h2⟩ := small_next hs hp
      cases o with
      | none =>
        left
        simp only [step, Task.step, hp]
        cases s.prepend buf with
        | none => exact ⟨rfl, trivial⟩
        | some s' => exact ⟨rfl, trivial⟩
      | some pkt =>
        have h2 := h2 pkt rfl
        simp only [step, Task.step, hp, unsplit]
        by_cases hl : buf.length + pkt.length ≤ M.cap
        · left
          simp only [if_pos hl, bind, Except.bind]
          rw [position_ok _ _ (by simp; omega)]
          simp only
          cases hf : findCrlf (buf ++ pkt) with
          | none => exact ⟨rfl, h1, by simpa using hl⟩
          | some pos =>
            have := findCrlf_le hf
            simp only [List.length_append] at this
            simp only [Option.map_some, Nat.zero_add, add_ok (show pos + 2 < M.top by omega), splitOff]
            rw [if_pos (by simp; omega)]
            simp only
            cases hq : s.prepend ((buf ++ pkt).drop (pos + 2)) with
            | none => exact ⟨rfl, trivial⟩
            | some s' => exact dispatch_ok hM hL hT _ _ _ (small_prepend h1 (by simp; omega) hq)
        · right
          simp only [if_neg hl, bind, Except.bind]
          exact ⟨trivial, buf, w, pkt, s, rfl, hp, by omega⟩
    · left
      simp only [step, Task.step, hp]
      exact ⟨trivial, (small_next hs hp).1, hb⟩
  | send r left a =>
    left
    cases left with
    | nil =>
      refine ⟨rfl, ?_⟩
      have e := flush_reader w
      simp only [Task.step]
      rcases hq : Server.flush w with ⟨_ | _ | _ | _, w'⟩ <;> rw [hq] at e
      · exact inv_resume _ _ (by simp only at e ⊢; rw [e]; exact h)
      all_goals trivial
    | cons t ts =>
      refine ⟨rfl, ?_⟩
      simp only [Task.step]
      split
      · trivial
      · rename_i l _
        have e := writeLine_reader l w
        rcases hq : Server.writeLine l w with ⟨_ | _ | _ | _, w'⟩ <;> rw [hq] at e
        · simp only at e ⊢
          show Small M w'.reader
          rw [e]; exact h
        all_goals trivial
  | newMail f => left; exact ⟨rfl, h⟩
  | filterFrom f =>
    left
    simp only [step, Task.step]
    rcases hq : C.filterFrom w.cfg w.conn f with ⟨_ | r, f', s, u⟩
    · exact ⟨say_ok hM (hT.says .mailOkay _) _ _, inv_reply _ _ _ h⟩
    · exact ⟨say_ok hM (hT.filterFrom _ _ _ _ _ _ _ hq) _ _, inv_reply _ _ _ h⟩
  | filterTo t m =>
    left
    simp only [step, Task.step]
    rcases hq : C.filterTo w.cfg w.conn t m with ⟨_ | r, t', m', s, u⟩
    · exact ⟨say_ok hM (hT.says .rcptOkay _) _ _, inv_reply _ _ _ h⟩
    · exact ⟨say_ok hM (hT.filterTo _ _ _ _ _ _ _ _ _ hq) _ _, inv_reply _ _ _ h⟩
  | filterData m =>
    left
    simp only [step, Task.step]
    rcases hq : C.filterData w.cfg w.conn m with ⟨_ | r, m', s, u⟩
    · exact ⟨say_ok hM (hT.says .dataOkay _) _ _, inv_reply _ _ _ h⟩
    · exact ⟨say_ok hM (hT.filterData _ _ _ _ _ _ _ hq) _ _, inv_reply _ _ _ h⟩
  | handle act hh d =>
    obtain ⟨hd, s0, u0, m0, rfl⟩ := h
    left
    simp only [step, Task.step]
    cases ha : C.handleMail s0 u0 m0 hh with
    | poll =>
      obtain ⟨h1, h2⟩ := poll_ok hM d hd
      simp only [h1, bind, Except.bind]
      exact ⟨trivial, h2, s0, u0, m0, rfl⟩
    | complete =>
      obtain ⟨h1, h2⟩ := complete_ok hM d hd
      simp only [h1, bind, Except.bind]
      cases hq : d.complete with
      | error p => exact ⟨rfl, trivial⟩
      | ok r => exact ⟨rfl, h2 _ _ hq, s0, u0, m0, rfl⟩
    | done dec s u =>
      simp only
      split
      · cases dec with
        | accept => exact ⟨say_ok hM (hT.says .mailAccepted _) _ _, inv_reply _ _ _ hd.source⟩
        | reject r => exact ⟨say_ok hM (hT.handleMail _ _ _ _ _ _ _ ha) _ _, inv_reply _ _ _ hd.source⟩
      · exact ⟨rfl, trivial⟩
  | over r => left; exact ⟨rfl, trivial⟩

/-! ### How much can be held -/

/-- What the session holds and can still get. -/
def within (n : Nat) (x : State L S U) : Prop :=
  match x.1 with
  | .over _ => True
  | .read buf => buf.length + x.2.reader.bytes.length ≤ n
  | .handle _ _ d => d.buf.length + d.source.bytes.length ≤ n
  | _ => x.2.reader.bytes.length ≤ n

theorem bytes_pending {p q : Prep Bytes} (h : p.pollNext = (.pending, q)) : p.bytes = q.bytes := by
  simp [Prep.bytes, (Prep.pollNext_pending h).1, evBytes]

theorem bytes_some {p q : Prep Bytes} {b : Bytes} (h : p.pollNext = (.ready (some b), q)) : p.bytes = b ++ q.bytes := by
  simp [Prep.bytes, (Prep.pollNext_some h).1, evBytes]

theorem bytes_none {p q : Prep Bytes} (h : p.pollNext = (.ready none, q)) : q.bytes = [] := by
  have h1 := Prep.pollNext_none h
  rw [h1.1]
  show evBytes p.evs = []
  rw [h1.2.1]; rfl

theorem bytes_prepend {p q : Prep Bytes} {b : Bytes} (h : p.prepend b = some q) : q.bytes = b ++ p.bytes := by
  unfold Prep.prepend at h
  split at h
  · cases h
  · rename_i hn
    cases h
    have : p.pre = none := by simpa using hn
    simp [Prep.bytes, Prep.evs, this, evBytes]

theorem loop_within (d : DStream) :
    d.pollLoop.2.buf.length + d.pollLoop.2.source.bytes.length ≤ d.buf.length + d.source.bytes.length := by
  fun_induction DStream.pollLoop d with
  | case1 => simp
  | case2 d st hs hlen s hp => simp [bytes_pending hp]
  | case3 d st hs hlen s hp => simp [bytes_none hp]
  | case4 d st hs hlen b s hp ih => have := congrArg List.length (bytes_some hp); simp at ih this ⊢; omega
  | case5 d st x hs res d' hlen => simp [d']
  | case6 d st x hs res d' hlen => simp [d']
  | case7 => simp
  | case8 d st x hs hlen ih => simp at ih ⊢; omega
  | case9 => simp
  | case10 d st x hs hx s hp => simp [bytes_pending hp]
  | case11 d st x hs hx s hp => simp [bytes_none hp]
  | case12 d st x hs hx b s hp ih => have := congrArg List.length (bytes_some hp); simp at ih this ⊢; omega

theorem poll_within (d : DStream) :
    d.pollNext.2.buf.length + d.pollNext.2.source.bytes.length ≤ d.buf.length + d.source.bytes.length := by
  unfold DStream.pollNext
  split
  · simp
  · exact loop_within d

theorem complete_within {d d' : DStream} {ok : Bool} (h : d.complete = .ok (ok, d')) :
    d'.buf.length + d'.source.bytes.length ≤ d.buf.length + d.source.bytes.length := by
  unfold DStream.complete at h
  split at h
  · cases h; simp
  · split at h
    · cases h
    · split at h
      · split at h
        · rename_i hp
          cases h
          simp [bytes_prepend hp]
        · cases h
      · cases h; simp

theorem within_reply {n : Nat} (r : Reply) (a : After L) (w : World L S U) (h : w.reader.bytes.length ≤ n) : within n (Task.reply r a, w) := by
  unfold Task.reply
  split
  · trivial
  · exact h

theorem within_dispatch {n : Nat} (w : World L S U) (line : Bytes) (h : w.reader.bytes.length ≤ n) : within n (Task.dispatch C w line) := by
  unfold Task.dispatch
  rcases (Command.parse line : Except ParseErr (Command L)) with e | c
  · exact within_reply _ _ _ h
  · cases c with
    | mail f ps =>
      simp only
      split
      · exact within_reply _ _ _ h
      · exact h
    | rcpt t ps =>
      cases w.mail with
      | some m => exact h
      | none => exact within_reply _ _ _ h
    | data =>
      cases w.mail with
      | some m =>
        simp only
        split
        · exact within_reply _ _ _ h
        · exact h
      | none => exact within_reply _ _ _ h
    | _ => exact within_reply _ _ _ h

theorem within_step {n : Nat} (x : State L S U) (h : within n x) : within n (Task.step C x) := by
  obtain ⟨pc, w⟩ := x
  cases pc with
  | read buf =>
    have h : buf.length + w.reader.bytes.length ≤ n := h
    rcases hp : w.reader.pollNext with ⟨_ | _, s⟩
    · rename_i o
      cases o with
      | none =>
        simp only [Task.step, hp]
        cases s.prepend buf <;> trivial
      | some pkt =>
        have e := congrArg List.length (bytes_some hp)
        simp only [List.length_append] at e
        simp only [Task.step, hp]
        cases findCrlf (buf ++ pkt) with
        | none =>
          show (buf ++ pkt).length + s.bytes.length ≤ n
          simp; omega
        | some pos =>
          simp only
          cases hq : s.prepend ((buf ++ pkt).drop (pos + 2)) with
          | none => trivial
          | some s' => exact within_dispatch _ _ (by simp [bytes_prepend hq]; omega)
    · simp only [Task.step, hp]
      show buf.length + s.bytes.length ≤ n
      rw [← bytes_pending hp]; exact h
  | send r left a =>
    have h : w.reader.bytes.length ≤ n := h
    cases left with
    | nil =>
      have e := flush_reader w
      simp only [Task.step]
      rcases hq : Server.flush w with ⟨_ | _ | _ | _, w'⟩ <;> rw [hq] at e
      · have h' : w'.reader.bytes.length ≤ n := by rw [show w'.reader = w.reader from e]; exact h
        cases a with
        | next => simpa [resume, within] using h'
        | setMail m => simpa [resume, within] using h'
        | handle m => simpa [resume, within, DStream.new] using h'
      all_goals trivial
    | cons t ts =>
      simp only [Task.step]
      split
      · trivial
      · rename_i l _
        have e := writeLine_reader l w
        rcases hq : Server.writeLine l w with ⟨_ | _ | _ | _, w'⟩ <;> rw [hq] at e
        · show w'.reader.bytes.length ≤ n
          rw [show w'.reader = w.reader from e]; exact h
        all_goals trivial
  | newMail f => exact h
  | filterFrom f =>
    simp only [Task.step]
    rcases hq : C.filterFrom w.cfg w.conn f with ⟨_ | r, f', s, u⟩ <;> exact within_reply _ _ _ h
  | filterTo t m =>
    simp only [Task.step]
    rcases hq : C.filterTo w.cfg w.conn t m with ⟨_ | r, t', m', s, u⟩ <;> exact within_reply _ _ _ h
  | filterData m =>
    simp only [Task.step]
    rcases hq : C.filterData w.cfg w.conn m with ⟨_ | r, m', s, u⟩ <;> exact within_reply _ _ _ h
  | handle act hh d =>
    have h : d.buf.length + d.source.bytes.length ≤ n := h
    simp only [Task.step]
    cases act hh with
    | poll => exact Nat.le_trans (poll_within d) h
    | complete =>
      simp only
      cases hq : d.complete with
      | error p => trivial
      | ok r => exact Nat.le_trans (complete_within hq) h
    | done dec s u =>
      simp only
      split
      · exact within_reply _ _ _ (by simp only; omega)
      · trivial
  | over r => trivial

end
end Checked
end Verif
