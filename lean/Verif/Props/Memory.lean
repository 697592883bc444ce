import Verif.Spec.Memory
import Verif.Proofs.PollEnd
import Verif.Props.Lines
import Verif.Props.Session
import Verif.Props.Rfc5321
/-
C96: what a connection makes the server keep in memory.
-/
namespace Verif
open Spec Server

private theorem unknown_facts {st st' : DState} {x : Nat} {buf : Bytes} (h : scanBuf st buf = (st', .unknown x)) :
    st' = .crLfPassed ∧ buf.length ≤ x + 2 := by
  have aux : ∀ st idx, scanWindows st idx buf ≠ (st', .unknown x) := by
    clear h
    intro st idx
    fun_induction scanWindows st idx buf <;> simp_all
  unfold scanBuf at h
  split at h
  · unfold scanLast at h
    grind
  · exact absurd h (aux _ _)

private theorem items_step {n : Nat} {p p' : Prep Bytes} {r : Poll (Option Bytes)} (h : p.pollNext = (r, p'))
    (hp : ItemsAtMost n p) : ItemsAtMost n p' ∧ ∀ b, r = .ready (some b) → b.length ≤ n := by
  rcases p.pollNext_cases with ⟨q, h1, h2, _⟩ | ⟨q, h1, h2, h3, _⟩ | ⟨a, q, h1, h2, _⟩ <;> rw [h] at h1 <;>
    simp only [Prod.mk.injEq] at h1 <;> obtain ⟨rfl, rfl⟩ := h1
  · exact ⟨fun b hb => hp b (by rw [h2]; simp [hb]), by simp⟩
  · refine ⟨fun b hb => hp b ?_, by simp⟩
    rw [h2] at hb; exact hb
  · exact ⟨fun b hb => hp b (by rw [h2]; simp [hb]), fun b hb => by simp at hb; subst hb; exact hp _ (by rw [h2]; simp)⟩

/-- The invariant of a `DataStream` over packets of at most `n` bytes. -/
structure Small (n : Nat) (d : DStream) : Prop where
  items : ItemsAtMost n d.source
  buf : d.buf.length ≤ n + 2
  fin : d.state = .finished → d.buf.length ≤ n

private theorem small_loop {n : Nat} (d : DStream) (h1 : ItemsAtMost n d.source) (h2 : d.buf.length ≤ n + 2) :
    Small n d.pollLoop.2 ∧ ∀ o, d.pollLoop.1 = .ready (some o) → o.length ≤ n + 2 := by
  fun_induction DStream.pollLoop d with
  | case1 d st hs hlen => exact ⟨⟨h1, by simp, by simp⟩, by rintro o ho; simp at ho; subst ho; exact h2⟩
  | case2 d st hs hlen s hp => 
    have hb : d.buf = [] := by simpa using hlen
    exact ⟨⟨(items_step hp h1).1, by simp [hb], by simp [hb]⟩, by simp⟩
  | case3 d st hs hlen s hp =>
    exact ⟨⟨(items_step hp h1).1, h2, by simp⟩, by simp⟩
  | case4 d st hs hlen b s hp ih =>
    have hb : d.buf = [] := by simpa using hlen
    have := items_step hp h1
    exact ih this.1 (by have := this.2 b rfl; simp [hb]; omega)
  | case5 d st x hs res d' hlen =>
    refine ⟨⟨h1, by simp [d']; omega, fun _ => by simp [d']; omega⟩, ?_⟩
    rintro o ho
    simp [res] at ho
    subst ho
    simp; omega
  | case6 d st x hs res d' hlen => exact ⟨⟨h1, by simp [d']; omega, fun _ => by simp [d']; omega⟩, by simp⟩
  | case7 d st x hs hlen =>
    refine ⟨⟨h1, by simp; omega, by simp⟩, ?_⟩
    rintro o ho
    simp at ho
    subst ho
    simp; omega
  | case8 d st x hs hlen ih => exact ih h1 (by simp; omega)
  | case9 d st x hs hx =>
    refine ⟨⟨h1, by simp; omega, by rw [(unknown_facts hs).1]; simp⟩, ?_⟩
    rintro o ho
    simp at ho
    subst ho
    simp; omega
  | case10 d st x hs hx s hp =>
    exact ⟨⟨(items_step hp h1).1, h2, by rw [(unknown_facts hs).1]; simp⟩, by simp⟩
  | case11 d st x hs hx s hp => exact ⟨⟨(items_step hp h1).1, h2, by simp⟩, by simp⟩
  | case12 d st x hs hx b s hp ih =>
    have := items_step hp h1
    have h3 := (unknown_facts hs).2
    exact ih this.1 (by have := this.2 b rfl; simp; omega)

theorem Small.poll {n : Nat} {d : DStream} (h : Small n d) :
    Small n d.pollNext.2 ∧ ∀ o, d.pollNext.1 = .ready (some o) → o.length ≤ n + 2 := by
  unfold DStream.pollNext
  split
  · exact ⟨h, by simp⟩
  · exact small_loop d h.items h.buf

theorem Small.complete {n : Nat} {d d' : DStream} {ok : Bool} (h : Small n d) (hc : d.complete = .ok (ok, d')) :
    Small n d' := by
  unfold DStream.complete at hc
  split at hc
  · simp at hc; rw [← hc.2]; exact ⟨h.items, h.buf, by simp⟩
  · split at hc
    · simp at hc
    · rename_i hf
      simp only [ne_eq, Decidable.not_not] at hf
      split at hc
      · split at hc
        · rename_i q hq
          simp at hc
          rw [← hc.2]
          refine ⟨?_, by simp, by simp⟩
          unfold Prep.prepend at hq
          split at hq
          · simp at hq
          · rename_i hn
            simp at hq hn
            subst hq
            intro b hb
            simp [Prep.evs] at hb
            rcases hb with rfl | hb
            · exact h.fin hf
            · exact h.items b (by simp [Prep.evs, hn, hb])
        · simp at hc
      · simp at hc; rw [← hc.2]; exact ⟨h.items, h.buf, by simp⟩

theorem Small.new {n : Nat} {s : Prep Bytes} (h : ItemsAtMost n s) : Small n (DStream.new s) :=
  ⟨h, by simp [DStream.new], by simp [DStream.new]⟩

/-- C96. Whatever is done with a `DataStream`, in any order: if no packet is longer than `n` bytes, it never holds more than
`n + 2` bytes, yields no chunk longer than that, and pushes back nothing longer than `n` bytes, however long the message is. -/
theorem c96_decoder {n : Nat} {s : Prep Bytes} (hs : ItemsAtMost n s) {out : List Bytes} {d : DStream}
    (h : Operated s out d) :
    d.buf.length ≤ n + 2 ∧ (∀ o ∈ out, o.length ≤ n + 2) ∧ ItemsAtMost n d.source := by
  have : Small n d ∧ ∀ o ∈ out, o.length ≤ n + 2 := by
    induction h with
    | new => exact ⟨.new hs, by simp⟩
    | @chunk out d o d' _ hp ih =>
      have := ih.1.poll
      rw [hp] at this
      refine ⟨this.1, fun x hx => ?_⟩
      rcases List.mem_append.1 hx with hx | hx
      · exact ih.2 x hx
      · simp at hx; subst hx; exact this.2 _ rfl
    | ended _ hp ih => have := ih.1.poll; rw [hp] at this; exact ⟨this.1, ih.2⟩
    | pending _ hp ih => have := ih.1.poll; rw [hp] at this; exact ⟨this.1, ih.2⟩
    | completed _ hc ih => exact ⟨ih.1.complete hc, ih.2⟩
  exact ⟨this.1.buf, this.2, this.1.items⟩

/-! ### Lines -/

/-- C96. While `next_crlf_line` waits, it holds exactly what it has taken: the whole of the unfinished line. -/
theorem c96_line_exact {s : Prep Bytes} {buf : Bytes} {p : Prep Bytes} (h : Awaiting s buf p) :
    ∃ taken, s.evs = taken ++ p.evs ∧ buf = evBytes taken ∧ NoCrlf buf := by
  induction h with
  | call => exact ⟨[], rfl, rfl, by rintro ⟨a, b, e⟩; have := congrArg List.length e; simp at this⟩
  | pending _ hp ih =>
    obtain ⟨t, h1, h2, h3⟩ := ih
    exact ⟨t ++ [.pending], by rw [h1, (Prep.pollNext_pending hp).1]; simp, by rw [h2]; simp, h3⟩
  | @packet buf p pkt p' _ hp hn ih =>
    obtain ⟨t, h1, h2, h3⟩ := ih
    exact ⟨t ++ [.pkt pkt], by rw [h1, (Prep.pollNext_some hp).1]; simp, by rw [h2]; simp, hn⟩

/-- C96. These are the points at which `next_crlf_line` waits: going on from there gives its result. -/
theorem c96_line_goes_on {s : Prep Bytes} {buf : Bytes} {p : Prep Bytes} (h : Awaiting s buf p) :
    nextCrlfLine s = nextCrlfLineLoop p buf := by
  induction h with
  | call => rfl
  | pending _ hp ih =>
    rw [ih, nextCrlfLineLoop]
    split <;> simp_all
  | packet _ hp hn ih =>
    rw [ih, nextCrlfLineLoop]
    split
    · simp_all
    · rename_i h; rw [hp] at h; simp at h; obtain ⟨rfl, rfl⟩ := h; rw [findCrlf_none hn]
    · simp_all

/-- C96. There is no limit: for every `n` there is a connection on which it comes to hold `n` bytes, and goes on waiting. -/
theorem c96_line_no_limit (n : Nat) (more : List (SrcEv Bytes)) :
    Awaiting (Prep.new (.pkt (List.replicate n 65) :: .pending :: more)) (List.replicate n 65) (Prep.new more) := by
  have h : NoCrlf (List.replicate n 65) := noCr_noCrlf fun c hc => by
    rw [List.mem_replicate] at hc; rw [hc.2]; decide
  exact .pending (.packet (pkt := List.replicate n 65) .call rfl (by simpa using h)) rfl

private theorem line_items {n : Nat} (s : Prep Bytes) (buf : Bytes) (hb : NoCrlf buf) (hs : ItemsAtMost n s) {l : Bytes}
    {s' : Prep Bytes} (h : nextCrlfLineLoop s buf = .ok (some l, s')) : ItemsAtMost n s' := by
  fun_induction nextCrlfLineLoop s buf with
  | case1 s buf s1 hp ih => exact ih hb (items_step hp hs).1 h
  | case2 s buf pkt s1 hp pos hpos s2 hpre =>
    simp at h
    obtain ⟨rfl, rfl⟩ := h
    obtain ⟨h1, h2⟩ := items_step hp hs
    have h3 := (Prep.pollNext_some hp).2
    simp [Prep.prepend, h3] at hpre
    subst hpre
    intro b hb'
    simp [Prep.evs] at hb'
    rcases hb' with rfl | hb'
    · have hl := h2 pkt rfl
      rcases crlf_split (buf ++ pkt) with hn | ⟨l, t, hl', he⟩
      · rw [findCrlf_none hn] at hpos; simp at hpos
      · rw [he, findCrlf_some hl'] at hpos
        simp at hpos
        subst hpos
        have hlen : buf.length < l.length + 2 := by
          apply Classical.byContradiction
          intro hc
          apply hb
          obtain ⟨r, hr⟩ : l ++ crlf <+: buf := by
            apply List.prefix_of_prefix_length_le (l₃ := buf ++ pkt)
            · rw [he]; exact List.prefix_append _ _
            · exact List.prefix_append _ _
            · simp [crlf]; omega
          exact ⟨l, r, hr⟩
        simp; omega
    · exact h1 b (by simp [Prep.evs, h3, hb'])
  | case3 s buf pkt s1 hp pos hpos hpre => simp at h
  | case4 s buf pkt s1 hp hpos ih =>
    refine ih ?_ (items_step hp hs).1 h
    rcases crlf_split (buf ++ pkt) with hn | ⟨l, t, hl, he⟩
    · exact hn
    · rw [he, findCrlf_some hl] at hpos; simp at hpos
  | case5 s buf s1 hp s2 hpre => simp at h
  | case6 s buf s1 hp hpre => simp at h

/-- C96. When a line is complete, no more is pushed back than came in one packet. -/
theorem c96_line_leftover {n : Nat} {s s' : Prep Bytes} (hs : ItemsAtMost n s) {l : Bytes}
    (h : nextCrlfLine s = .ok (some l, s')) : ItemsAtMost n s' :=
  line_items s [] (by rintro ⟨a, b, e⟩; have := congrArg List.length e; simp at this) hs h

/-! ### Sessions -/
variable {L : IpLib} {S U : Type} {C : Config L S U}

private theorem run_items {n : Nat} {act : List HObs → HAct S U} (k : Nat) (hist : List HObs) (d : DStream) (h : Small n d)
    {dec s u x} (hr : runHandler act k hist d = .returned dec s u x) : Small n x := by
  induction k generalizing hist d with
  | zero => simp [runHandler] at hr
  | succ k ih =>
    rw [runHandler] at hr
    split at hr
    · simp at hr; rw [← hr.2.2.2]; exact h
    · exact ih _ _ h.poll.1 hr
    · split at hr
      · simp at hr
      · rename_i hc; exact ih _ _ (h.complete hc) hr

private theorem handleLine_items {n : Nat} (fuel : Nat) (l : Bytes) (w : World L S U) (h : ItemsAtMost n w.reader) :
    ItemsAtMost n (handleLine C fuel l w).2.reader := by
  obtain ⟨new, _, h2 | ⟨s, u, m, d, s', u', x, _, h3, h4⟩⟩ := touches_handleLine (C := C) fuel l w
  · rw [h2.2]; exact h
  · rw [h4]; exact (run_items _ _ _ (.new h) h3).items

private theorem loop_items {n : Nat} (fuel k : Nat) (w : World L S U) (h : ItemsAtMost n w.reader) :
    (loop C fuel k w).1 ≠ .ok () → ItemsAtMost n (loop C fuel k w).2.reader := by
  induction k generalizing w with
  | zero => intro _; exact h
  | succ k ih =>
    rw [loop]
    cases hl : nextCrlfLine w.reader with
    | error p =>
      have : (nextLine : M L S U _) w = (.panic p, w) := by simp [nextLine, hl]
      rw [SM.bind_panic this]; intro _; exact h
    | ok r =>
      obtain ⟨l, rd⟩ := r
      have : (nextLine : M L S U _) w = (.ok l, { w with reader := rd }) := by simp [nextLine, hl]
      rw [SM.bind_ok this]
      cases l with
      | none => intro hn; exact absurd rfl hn
      | some l =>
        have h1 : ItemsAtMost n ({ w with reader := rd } : World L S U).reader := c96_line_leftover h hl
        have h2 := handleLine_items (C := C) fuel l ({ w with reader := rd, trace := w.trace ++ [.line l] } : World L S U) h1
        dsimp only
        rw [SM.bind_ok (m := emit (.line l)) (a := ()) (w := { w with reader := rd })
          (w' := { w with reader := rd, trace := w.trace ++ [.line l] }) rfl]
        rcases hh : handleLine C fuel l { w with reader := rd, trace := w.trace ++ [.line l] } with ⟨r, w'⟩
        rw [hh] at h2
        cases r with
        | ok a => rw [SM.bind_ok hh]; exact ih w' h2
        | err => rw [SM.bind_err hh]; intro _; exact h2
        | panic p => rw [SM.bind_panic hh]; intro _; exact h2
        | running => rw [SM.bind_running hh]; intro _; exact h2

/-- C96. In a session, whatever the configuration and its mail handlers do, and however long it goes on: as long as the
connection has not ended, nothing longer than the longest packet is pushed back. (When it has ended, what is left is the
unfinished line.) -/
theorem c96_session {n : Nat} (fuel : Nat) (incoming : List (SrcEv Bytes)) (hin : ∀ b, .pkt b ∈ incoming → b.length ≤ n)
    (outgoing : BSink) (s : S) (u : U) (r : Res Unit) (w : World L S U)
    (h : interact C fuel incoming outgoing s u = (r, w)) :
    (r ≠ .ok () → ItemsAtMost n w.reader) ∧ (r = .ok () → NoCrlf w.reader.bytes) := by
  refine ⟨fun hr => ?_, fun hr => c53_all_lines C fuel incoming outgoing s u w (by rw [h, hr])⟩
  have h0 : ItemsAtMost n (start incoming outgoing s u : World L S U).reader := hin
  unfold interact session at h
  have q := quiet_sendCfg (L := L) (U := U) C.welcomeBanner (start incoming outgoing s u)
  rcases hp : sendCfg C.welcomeBanner (start incoming outgoing s u) with ⟨r', w'⟩
  rw [hp] at q
  rw [← q.1] at h0
  cases r' with
  | ok a =>
    rw [SM.bind_ok hp] at h
    have := loop_items (C := C) fuel fuel w' h0
    rw [h] at this
    exact this hr
  | err => rw [SM.bind_err hp] at h; simp at h; rw [← h.2]; exact h0
  | panic q => rw [SM.bind_panic hp] at h; simp at h; rw [← h.2]; exact h0
  | running => rw [SM.bind_running hp] at h; simp at h; rw [← h.2]; exact h0

/-- C96. Nor is there a limit on the length of a line that is executed: a line of any length that holds a command gets that
command's answer (RFC 5321 lets a server refuse more than 512 bytes). -/
theorem c96_long_line (hL : IpLaws L) (n fuel : Nat) (w : World L S U) :
    OnlyReply w (C.commandUnimplemented w.cfg) (handleLine C fuel (b!"NOOP" ++ b!" " ++ List.replicate n 65 ++ crlf) w) := by
  have h : NoCrlf (List.replicate n 65) := noCr_noCrlf fun c hc => by
    rw [List.mem_replicate] at hc; rw [hc.2]; decide
  have hl : CmdLine L (b!"NOOP" ++ b!" " ++ List.replicate n 65 ++ crlf) (.noop (List.replicate n 65)) :=
    .noop b!"NOOP" b!" " _ (by unfold IsVerb; decide) h (.inl ⟨32, by decide, rfl⟩)
  obtain ⟨c', h1, h2⟩ := (c30_language hL _).2 _ hl
  have e : c' = .noop (List.replicate n 65) := by
    cases c' <;> simp_all [SameCommand]
  subst e
  exact c47_unimplemented C fuel _ w _ h1 (by simp) (by simp) (by simp)

/-- C96, a case: packets of one byte. After the packets `a` and `.` of a line and of the beginning of the next, the chunk is
out, and the dot is held. -/
theorem c96_example : ∃ s out d, ItemsAtMost 1 s ∧ Operated s out d ∧ out.flatten = b!"a\r\n" ∧ d.buf = b!".\r" := by
  let s : Prep Bytes := Prep.new [.pkt b!"a", .pkt b!"\r", .pkt b!"\n", .pkt b!".", .pkt b!"\r", .pending]
  let d1 := (DStream.new s).pollNext.2
  let d2 := d1.pollNext.2
  let d3 := d2.pollNext.2
  let d4 := d3.pollNext.2
  have h1 : (DStream.new s).pollNext = (.ready (some b!"a"), d1) := by decide +kernel
  have h2 : d1.pollNext = (.ready (some b!"\r"), d2) := by decide +kernel
  have h3 : d2.pollNext = (.ready (some b!"\n"), d3) := by decide +kernel
  have h4 : d3.pollNext = (.pending, d4) := by decide +kernel
  exact ⟨s, _, d4, by intro b hb; simp [s, Prep.new, Prep.evs] at hb; rcases hb with rfl | rfl | rfl | rfl | rfl <;> simp,
    .pending (.chunk (.chunk (.chunk .new h1) h2) h3) h4, rfl, by decide +kernel⟩

end Verif
