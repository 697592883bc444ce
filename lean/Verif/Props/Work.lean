import Verif.Spec.Work
import Verif.Props.Memory
/-
C97: how much work it is to find the end of a message, and of a line.
-/
namespace Verif
open Spec

private theorem pollLoopC_snd (d : DStream) : d.pollLoopC.2 = d.pollLoop := by
  fun_induction DStream.pollLoopC d with
  | case1 d n st hs hlen =>
    have hs' : scanBuf d.state d.buf = (st, .nowhere) := by rw [← scanBufC_fst, hs]
    rw [DStream.pollLoop]; split <;> simp_all
  | case2 d n st hs hlen s hp =>
    have hs' : scanBuf d.state d.buf = (st, .nowhere) := by rw [← scanBufC_fst, hs]
    rw [DStream.pollLoop]; split <;> simp_all; split <;> simp_all
  | case3 d n st hs hlen s hp =>
    have hs' : scanBuf d.state d.buf = (st, .nowhere) := by rw [← scanBufC_fst, hs]
    rw [DStream.pollLoop]; split <;> simp_all; split <;> simp_all
  | case4 d n st hs hlen b s hp r ih =>
    have hs' : scanBuf d.state d.buf = (st, .nowhere) := by rw [← scanBufC_fst, hs]
    rw [DStream.pollLoop]; split <;> simp_all; split <;> simp_all +zetaDelta
  | case5 d n st x hs res d' hlen =>
    have hs' : scanBuf d.state d.buf = (st, .eof x) := by rw [← scanBufC_fst, hs]
    rw [DStream.pollLoop]; split <;> simp_all +zetaDelta
  | case6 d n st x hs res d' hlen =>
    have hs' : scanBuf d.state d.buf = (st, .eof x) := by rw [← scanBufC_fst, hs]
    rw [DStream.pollLoop]; split <;> simp_all +zetaDelta
  | case7 d n st x hs hlen =>
    have hs' : scanBuf d.state d.buf = (st, .escape x) := by rw [← scanBufC_fst, hs]
    rw [DStream.pollLoop]; split <;> simp_all +zetaDelta
  | case8 d n st x hs hlen r ih =>
    have hs' : scanBuf d.state d.buf = (st, .escape x) := by rw [← scanBufC_fst, hs]
    rw [DStream.pollLoop]; split <;> simp_all +zetaDelta
    intro h; rcases hlen with h' | h' <;> simp [h'] at h
  | case9 d n st x hs hx =>
    have hs' : scanBuf d.state d.buf = (st, .unknown x) := by rw [← scanBufC_fst, hs]
    rw [DStream.pollLoop]; split <;> simp_all +zetaDelta
  | case10 d n st x hs hx s hp =>
    have hs' : scanBuf d.state d.buf = (st, .unknown x) := by rw [← scanBufC_fst, hs]
    rw [DStream.pollLoop]; split <;> simp_all; split <;> simp_all
  | case11 d n st x hs hx s hp =>
    have hs' : scanBuf d.state d.buf = (st, .unknown x) := by rw [← scanBufC_fst, hs]
    rw [DStream.pollLoop]; split <;> simp_all; split <;> simp_all
  | case12 d n st x hs hx b s hp r ih =>
    have hs' : scanBuf d.state d.buf = (st, .unknown x) := by rw [← scanBufC_fst, hs]
    rw [DStream.pollLoop]; split <;> simp_all; split <;> simp_all +zetaDelta

private theorem nextLoopC_snd (s : Prep Bytes) (buf : Bytes) : (nextCrlfLineLoopC s buf).2 = nextCrlfLineLoop s buf := by
  fun_induction nextCrlfLineLoopC s buf <;> rw [nextCrlfLineLoop] <;> split <;> simp_all +zetaDelta

/-- C97. The counters only count: without them the functions are those of C01-C20. -/
theorem c97_counters (d : DStream) (s : Prep Bytes) :
    d.pollNextC.2 = d.pollNext ∧ (nextCrlfLineC s).2 = nextCrlfLine s := by
  constructor
  · unfold DStream.pollNextC DStream.pollNext
    split
    · rfl
    · exact pollLoopC_snd d
  · exact nextLoopC_snd s []

def WinCost (idx len n : Nat) : BufSplit → Prop
  | .nowhere => n = len - 2
  | .eof x => idx ≤ x ∧ n = x - idx + 1 ∧ x - idx + 3 ≤ len
  | .escape x => idx ≤ x ∧ n = x - idx + 1 ∧ x - idx + 3 ≤ len
  | .unknown _ => False

theorem WinCost.step {idx len n : Nat} {sp : BufSplit} (hl : 2 ≤ len) (h : WinCost (idx + 1) len n sp) :
    WinCost idx (len + 1) (n + 1) sp := by
  cases sp <;> simp only [WinCost] at * <;> omega

theorem windows_cost (st : DState) (idx : Nat) (buf : Bytes) :
    WinCost idx buf.length (scanWindowsC st idx buf).1 (scanWindowsC st idx buf).2.2 := by
  fun_induction scanWindowsC st idx buf with
  | case1 st idx w1 w2 rest r ih => exact ih.step (by simp)
  | case2 st idx w0 w1 w2 rest h1 h2 r ih => exact ih.step (by simp)
  | case3 => simp [WinCost]
  | case4 => simp [WinCost]
  | case5 st idx w0 w1 w2 rest h1 h2 h3 r ih => exact ih.step (by simp)
  | case6 t st idx h =>
    match t, h with
    | [], _ => simp [WinCost]
    | [_], _ => simp [WinCost]
    | [_, _], _ => simp [WinCost]
    | _ :: _ :: _ :: _, h => exact absurd rfl (h _ _ _ _)

def ScanCost (buf : Bytes) (n : Nat) : BufSplit → Prop
  | .nowhere => n ≤ buf.length ∨ (buf = [] ∧ n = 1)
  | .eof x => n ≤ x + 3 ∧ x + 3 ≤ buf.length
  | .escape x => n ≤ x + 1 ∧ x + 1 ≤ buf.length
  | .unknown x => n ≤ x + 1 ∧ x ≤ buf.length

theorem scan_cost {st st' : DState} {buf : Bytes} {n : Nat} {sp : BufSplit} (h : scanBufC st buf = (n, st', sp)) :
    ScanCost buf n sp := by
  have hw := windows_cost st 0 buf
  unfold scanBufC at h
  split at h
  · rename_i m st1 hm
    rw [hm] at hw
    simp only [WinCost] at hw
    simp only [Prod.mk.injEq] at h
    obtain ⟨rfl, h⟩ := h
    have hn : buf.length = 0 → buf = [] := List.length_eq_zero_iff.1
    unfold scanLast at h
    by_cases h2 : 2 ≤ buf.length
    · simp only [h2, dite_true] at h
      (repeat' split at h) <;> simp only [Prod.mk.injEq] at h <;> obtain ⟨_, rfl⟩ := h <;> simp only [ScanCost] <;> omega
    · by_cases h1 : buf.length = 1
      · simp only [h1] at h
        (repeat' split at h) <;> first | omega | skip
        all_goals simp only [Prod.mk.injEq] at h
        all_goals obtain ⟨_, rfl⟩ := h
        all_goals simp only [ScanCost]
        all_goals omega
      · simp only [h2, h1, dite_false, Prod.mk.injEq] at h
        obtain ⟨_, rfl⟩ := h
        simp only [ScanCost]
        exact .inr ⟨hn (by omega), by omega⟩
  · rw [h] at hw
    cases sp <;> simp only [WinCost, ScanCost] at * <;> first | omega | simp_all

theorem evs_ended {p p' : Prep Bytes} (hp : p.pollNext = (.ready none, p')) : p.evs = [] ++ p'.evs := by
  rcases p.pollNext_cases with ⟨q, h1, _⟩ | ⟨q, h1, h2, h3, _⟩ | ⟨a, q, h1, _⟩ <;> rw [hp] at h1 <;>
    simp only [Prod.mk.injEq] at h1 <;> obtain ⟨e, rfl⟩ := h1
  · cases e
  · rw [h2]; rfl
  · cases e

/-- One poll: the work is bounded by the bytes that leave the buffer, the packets read, and one. -/
private theorem loop_cost (d : DStream) :
    ∃ taken, d.source.evs = taken ++ d.pollLoopC.2.2.source.evs ∧
      d.pollLoopC.1 + d.pollLoopC.2.2.buf.length ≤ d.buf.length + (evBytes taken).length + packets taken + 1 := by
  fun_induction DStream.pollLoopC d with
  | case1 d n st hs hlen =>
    have := scan_cost hs
    refine ⟨[], rfl, ?_⟩
    rcases this with h | h
    · simp; omega
    · rw [h.1] at hlen; simp at hlen
  | case2 d n st hs hlen s hp =>
    have := scan_cost hs
    have hb : d.buf = [] := by simpa using hlen
    refine ⟨[.pending], by simp [(Prep.pollNext_pending hp).1], ?_⟩
    rcases this with h | h <;> simp_all [evBytes, packets]
  | case3 d n st hs hlen s hp =>
    have := scan_cost hs
    have hb : d.buf = [] := by simpa using hlen
    refine ⟨[], evs_ended hp, ?_⟩
    rcases this with h | h <;> simp_all [evBytes, packets]
  | case4 d n st hs hlen b s hp r ih =>
    have := scan_cost hs
    have hb : d.buf = [] := by simpa using hlen
    obtain ⟨t, h1, h2⟩ := ih
    refine ⟨.pkt b :: t, by rw [(Prep.pollNext_some hp).1]; simp [r, h1], ?_⟩
    have hn : n ≤ 1 := by rcases this with h | h <;> simp_all
    simp [evBytes, packets] at h2 ⊢
    simp [r]
    omega
  | case5 d n st x hs res d' hlen =>
    obtain ⟨h1, h2⟩ := scan_cost hs
    exact ⟨[], rfl, by simp [d']; omega⟩
  | case6 d n st x hs res d' hlen =>
    obtain ⟨h1, h2⟩ := scan_cost hs
    exact ⟨[], rfl, by simp [d']; omega⟩
  | case7 d n st x hs hlen =>
    obtain ⟨h1, h2⟩ := scan_cost hs
    exact ⟨[], rfl, by simp; omega⟩
  | case8 d n st x hs hlen r ih =>
    obtain ⟨h1, h2⟩ := scan_cost hs
    obtain ⟨t, h3, h4⟩ := ih
    refine ⟨t, h3, ?_⟩
    simp at h4 ⊢
    simp [r]
    omega
  | case9 d n st x hs hx =>
    obtain ⟨h1, h2⟩ := scan_cost hs
    exact ⟨[], rfl, by simp; omega⟩
  | case10 d n st x hs hx s hp =>
    obtain ⟨h1, h2⟩ := scan_cost hs
    exact ⟨[.pending], by simp [(Prep.pollNext_pending hp).1], by simp; omega⟩
  | case11 d n st x hs hx s hp =>
    obtain ⟨h1, h2⟩ := scan_cost hs
    exact ⟨[], evs_ended hp, by simp; omega⟩
  | case12 d n st x hs hx b s hp r ih =>
    obtain ⟨h1, h2⟩ := scan_cost hs
    obtain ⟨t, h3, h4⟩ := ih
    refine ⟨.pkt b :: t, by rw [(Prep.pollNext_some hp).1]; simp [r, h3], ?_⟩
    simp [evBytes, packets] at h4 ⊢
    simp [r]
    omega

theorem packets_append (a b : List (SrcEv Bytes)) : packets (a ++ b) = packets a + packets b := by
  induction a with
  | nil => simp [packets]
  | cons e a ih => cases e <;> simp [packets, ih]; omega

/-- C97. Decoding a message is linear: after `k` polls of a `DataStream`, the places looked at, together with the bytes still
in the buffer, are at most the bytes and packets taken from the reader, plus `k`. -/
theorem c97_decoder_linear {s : Prep Bytes} {k w : Nat} {d : DStream} (h : Metered s k w d) :
    ∃ taken, s.evs = taken ++ d.source.evs ∧ w + d.buf.length ≤ (evBytes taken).length + packets taken + k := by
  induction h with
  | new => exact ⟨[], rfl, by simp [DStream.new]⟩
  | @poll k w d _ ih =>
    obtain ⟨t, h1, h2⟩ := ih
    unfold DStream.pollNextC
    split
    · exact ⟨t, h1, by simp; omega⟩
    · obtain ⟨t', h3, h4⟩ := loop_cost d
      refine ⟨t ++ t', by rw [h1, h3]; simp, ?_⟩
      simp [packets_append]
      omega

/-! ### Lines -/

theorem findCrlf_lt {l : Bytes} {p : Nat} (h : findCrlf l = some p) : p + 2 ≤ l.length := by
  rcases crlf_split l with hn | ⟨a, t, ha, he⟩
  · rw [findCrlf_none hn] at h; simp at h
  · rw [he, findCrlf_some ha] at h
    simp at h
    subst h
    rw [he]; simp [crlf]

theorem findCrlfWork_le (l : Bytes) : findCrlfWork l ≤ l.length := by
  unfold findCrlfWork
  split
  · have := findCrlf_lt (by assumption)
    omega
  · omega

private theorem prepend_src {α : Type} {p p' : Prep α} {a : α} (h : p.prepend a = some p') : p'.src = p.src ∧ p.pre = none := by
  unfold Prep.prepend at h
  split at h
  · simp at h
  · rename_i hn
    simp at h hn
    subst h
    exact ⟨rfl, hn⟩

private theorem evs_of_none {α : Type} {p : Prep α} (h : p.pre = none) : p.evs = p.src := by simp [Prep.evs, h]

private theorem line_cost (s : Prep Bytes) (buf : Bytes) {l : Option Bytes} {s' : Prep Bytes}
    (h : (nextCrlfLineLoopC s buf).2 = .ok (l, s')) : ∃ taken, s.evs = taken ++ s'.src ∧
    (nextCrlfLineLoopC s buf).1 ≤ packets taken * (buf.length + (evBytes taken).length) := by
  fun_induction nextCrlfLineLoopC s buf with
  | case1 s buf s1 hp ih =>
    obtain ⟨t, h1, h2⟩ := ih h
    exact ⟨.pending :: t, by rw [(Prep.pollNext_pending hp).1, h1]; rfl, h2⟩
  | case2 s buf pkt s1 hp pos hpos s2 hpre =>
    simp at h
    obtain ⟨rfl, rfl⟩ := h
    obtain ⟨h1, h2⟩ := prepend_src hpre
    refine ⟨[.pkt pkt], by rw [(Prep.pollNext_some hp).1, evs_of_none h2, h1]; rfl, ?_⟩
    have := findCrlfWork_le (buf ++ pkt)
    simpa [packets, evBytes] using this
  | case3 s buf pkt s1 hp pos hpos hpre => simp at h
  | case4 s buf pkt s1 hp hpos r ih =>
    obtain ⟨t, h1, h2⟩ := ih h
    refine ⟨.pkt pkt :: t, by rw [(Prep.pollNext_some hp).1, h1]; rfl, ?_⟩
    have h3 := findCrlfWork_le (buf ++ pkt)
    simp only [packets, evBytes, Nat.add_mul, Nat.one_mul, List.length_append] at *
    rw [show buf.length + (pkt.length + (evBytes t).length) = buf.length + pkt.length + (evBytes t).length by omega]
    simp only [r]
    omega
  | case5 s buf s1 hp s2 hpre =>
    simp at h
    obtain ⟨rfl, rfl⟩ := h
    obtain ⟨h1, h2⟩ := prepend_src hpre
    exact ⟨[], by rw [evs_ended hp, h1, evs_of_none h2], by simp⟩
  | case6 s buf s1 hp hpre => simp at h

/-- C97. Finding the end of a line costs at most the number of packets taken times the number of bytes taken. -/
theorem c97_line_upper {s s' : Prep Bytes} {l : Option Bytes} (h : nextCrlfLine s = .ok (l, s')) :
    ∃ taken, s.evs = taken ++ s'.src ∧ (nextCrlfLineC s).1 ≤ packets taken * (evBytes taken).length := by
  obtain ⟨t, h1, h2⟩ := line_cost s [] (l := l) (s' := s') (by rw [nextLoopC_snd]; exact h)
  exact ⟨t, h1, by simpa [nextCrlfLineC] using h2⟩

private theorem noCrlf_crumb (k : Nat) : NoCrlf (List.replicate k 65) := noCr_noCrlf fun c hc => by
  rw [List.mem_replicate] at hc; rw [hc.2]; decide

private theorem crumbs (n k : Nat) (rest : List (SrcEv Bytes)) :
    2 * (nextCrlfLineLoopC ⟨List.replicate n (.pkt [65]) ++ .pkt crlf :: rest, none, 0⟩ (List.replicate k 65)).1 =
      n * (2 * k) + n * (n - 1) + 2 * (n + k + 1) := by
  induction n generalizing k with
  | zero =>
    have h := findCrlf_some (noCrlf_crumb k) (t := [])
    rw [nextCrlfLineLoopC]
    simp at h
    simp [Prep.pollNext, Prep.prepend, findCrlfWork, h]
  | succ n ih =>
    have h := findCrlf_none (noCrlf_crumb (k + 1))
    have e : List.replicate k (65 : UInt8) ++ [65] = List.replicate (k + 1) 65 := List.replicate_succ'.symm
    have := ih (k + 1)
    rw [nextCrlfLineLoopC]
    simp only [List.replicate_succ, List.cons_append, Prep.pollNext]
    rw [e, h]
    simp [findCrlfWork, h]
    rw [Nat.mul_add, this]
    cases n with
    | zero => simp; omega
    | succ m => simp [Nat.add_mul, Nat.mul_add]; omega

/-- C97. And that is what it costs: a line of `n` bytes that comes in packets of one byte is searched from its beginning at
every packet. -/
theorem c97_line_quadratic (n : Nat) (rest : List (SrcEv Bytes)) :
    2 * (nextCrlfLineC (Prep.new (List.replicate n (.pkt [65]) ++ .pkt crlf :: rest))).1 = n * (n - 1) + 2 * (n + 1) := by
  have := crumbs n 0 rest
  simpa [nextCrlfLineC, Prep.new] using this

/-- C97, a case: eight one-byte packets cost more places looked at (37) than bytes received (10); the same ten bytes in one packet cost
nine. Decoding a message that comes in three packets looks at two places per packet. -/
theorem c97_example :
    (nextCrlfLineC (Prep.new (List.replicate 8 (.pkt [65]) ++ [.pkt crlf]))).1 = 37 ∧
    (nextCrlfLineC (Prep.new [.pkt (List.replicate 8 65 ++ crlf)])).1 = 9 ∧
    ∃ d, Metered (Prep.new [.pkt [65], .pkt [65], .pkt crlf]) 3 6 d ∧ d.source.evs = [] ∧ d.buf = [] := by
  refine ⟨by have := c97_line_quadratic 8 []; omega, by decide +kernel, ?_⟩
  let s : Prep Bytes := Prep.new [.pkt [65], .pkt [65], .pkt crlf]
  have h : Metered s (0 + 1 + 1 + 1) _ _ := .poll (.poll (.poll .new))
  have e : (0 + (DStream.new s).pollNextC.fst + (DStream.new s).pollNextC.snd.snd.pollNextC.fst +
      (DStream.new s).pollNextC.snd.snd.pollNextC.snd.snd.pollNextC.fst) = 6 := by decide +kernel
  rw [e] at h
  exact ⟨_, h, by decide +kernel, by decide +kernel⟩

end Verif
