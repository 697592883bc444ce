import Verif.Spec.AnySource
import Verif.Proofs.Task
/-
Simulation: a session over any connection, as long as the connection is like a list, is the session over this list.
-/
namespace Verif.AnySource
open Spec
variable {L : IpLib} {S U : Type} {C : Config L S U} {f : Source} {N : Nat} {rest : List (SrcEv Bytes)}

theorem heard_zero (f : Source) (k : Nat) : heard f k 0 = [] := rfl

theorem heard_succ (f : Source) (k n : Nat) : heard f k (n + 1) = (match f k with
    | .pending => [.pending] | .ready (some b) => [.pkt b] | .ready none => []) ++ heard f (k + 1) n := by
  unfold heard
  rw [List.range'_succ, List.filterMap_cons]
  rcases f k with (_ | b) | _ <;> rfl

/-- After `k` polls, the connection `f` is like the list of its first `N` answers, and `rest`. -/
def Like (f : Source) (N : Nat) (rest : List (SrcEv Bytes)) (k : Nat) : Prop :=
  k ≤ N ∨ (rest = [] ∧ ∀ i, N ≤ i → i < k → f i = .ready none)

theorem Like.mono {k k' : Nat} (h : Like f N rest k') (hk : k ≤ k') : Like f N rest k := by
  rcases h with h | ⟨h1, h2⟩
  · exact .inl (by omega)
  · exact .inr ⟨h1, fun i hi hik => h2 i hi (by omega)⟩

structure RelR (f : Source) (N : Nat) (rest : List (SrcEv Bytes)) (r : Reader) (p : Prep Bytes) : Prop where
  pre : p.pre = r.pre
  src : p.src = heard f r.polls (N - r.polls) ++ rest

theorem relR_poll (ho : OpenFor f N) {r : Reader} {p : Prep Bytes} (h : RelR f N rest r p) (hl : Like f N rest (r.poll f).2.polls) :
    p.pollNext.1 = (r.poll f).1 ∧ RelR f N rest (r.poll f).2 p.pollNext.2 := by
  obtain ⟨h1, h2⟩ := h
  obtain ⟨k, pre⟩ := r
  obtain ⟨src, pre', ends⟩ := p
  dsimp only at h1 h2
  subst h1
  cases pre' with
  | some b => exact ⟨rfl, rfl, h2⟩
  | none =>
    simp only [Reader.poll] at hl ⊢
    rcases Nat.lt_or_ge k N with hk | hk
    · obtain ⟨j, hj⟩ : ∃ j, N - k = j + 1 := ⟨N - k - 1, by omega⟩
      rw [hj, heard_succ] at h2
      have hj' : N - (k + 1) = j := by omega
      have := ho k hk
      rcases hf : f k with (_ | b) | _
      · exact absurd hf this
      · rw [hf] at h2
        subst h2
        exact ⟨rfl, rfl, by dsimp only [Prep.pollNext]; rw [hj']; rfl⟩
      · rw [hf] at h2
        subst h2
        exact ⟨rfl, rfl, by dsimp only [Prep.pollNext]; rw [hj']; rfl⟩
    · rcases hl with hl | ⟨hr, hl⟩
      · omega
      · have hf := hl k hk (by omega)
        rw [show N - k = 0 by omega, heard_zero, hr] at h2
        subst h2
        rw [hf]
        exact ⟨rfl, rfl, by dsimp only [Prep.pollNext]; rw [show N - (k + 1) = 0 by omega, hr]; rfl⟩

theorem relR_prepend {r : Reader} {p : Prep Bytes} (h : RelR f N rest r p) (x : Bytes) :
    match r.prepend x, p.prepend x with
    | none, none => True
    | some r', some p' => RelR f N rest r' p' ∧ r'.polls = r.polls
    | _, _ => False := by
  obtain ⟨h1, h2⟩ := h
  unfold Reader.prepend Prep.prepend
  rw [h1]
  cases r.pre with
  | none => exact ⟨⟨rfl, h2⟩, rfl⟩
  | some b => trivial

structure RelD (f : Source) (N : Nat) (rest : List (SrcEv Bytes)) (d : DS) (d' : DStream) : Prop where
  reader : RelR f N rest d.reader d'.source
  state : d'.state = d.state
  buf : d'.buf = d.buf

/-- The states that correspond to each other. -/
inductive Rel (f : Source) (N : Nat) (rest : List (SrcEv Bytes)) : State L S U → Task.State L S U → Prop
  | plain {p r w q} : (∀ act h d, p ≠ .handle act h d) → RelR f N rest r q → Rel f N rest ⟨.plain p, r, w⟩ (p, { w with reader := q })
  | over {e r w q} : Rel f N rest ⟨.plain (.over e), r, w⟩ (.over e, { w with reader := q })
  | handle {act h d r w d' q} : RelD f N rest d d' → Rel f N rest ⟨.handle act h d, r, w⟩ (.handle act h d', { w with reader := q })
  | polling {act h d r w d0 d' q} : act h = .poll → d0.state ≠ .finished → d0.pollNext = DStream.pollLoop d' → RelD f N rest d d' →
      Rel f N rest ⟨.polling act h d, r, w⟩ (.handle act h d0, { w with reader := q })

theorem Rel.same {x : State L S U} {y : Task.State L S U} (h : Rel f N rest x y) : SamePoint x y := by
  cases h with
  | plain hp _ => exact ⟨⟨rfl, hp⟩, rfl, rfl, rfl, rfl, rfl⟩
  | over => exact ⟨⟨rfl, by simp⟩, rfl, rfl, rfl, rfl, rfl⟩
  | handle h => exact ⟨⟨rfl, rfl, h.state.symm, h.buf.symm, h.reader.pre.symm⟩, rfl, rfl, rfl, rfl, rfl⟩
  | polling h => exact ⟨⟨rfl, rfl, h⟩, rfl, rfl, rfl, rfl, rfl⟩

theorem reply_not_handle (r : Reply) (a : Task.After L) : ∀ act h d, (Task.reply r a : Task.PC L S U) ≠ .handle act h d := by
  unfold Task.reply
  split <;> simp

theorem dispatch_reader (w : World L S U) (q : Prep Bytes) (l : Bytes) :
    Task.dispatch C { w with reader := q } l = ((Task.dispatch C w l).1, { (Task.dispatch C w l).2 with reader := q }) ∧
    ∀ act h d, (Task.dispatch C w l).1 ≠ .handle act h d := by
  unfold Task.dispatch
  dsimp only
  cases (Command.parse l : Except ParseErr (Command L)) with
  | error e => exact ⟨rfl, reply_not_handle _ _⟩
  | ok c =>
    obtain ⟨rd, wr, s, u, m, tr⟩ := w
    cases c with
    | mail fr ps =>
      cases m with
      | none => exact ⟨rfl, by simp⟩
      | some m => exact ⟨rfl, reply_not_handle _ _⟩
    | rcpt t ps =>
      cases m with
      | none => exact ⟨rfl, reply_not_handle _ _⟩
      | some m => exact ⟨rfl, by simp⟩
    | data =>
      cases m with
      | none => exact ⟨rfl, reply_not_handle _ _⟩
      | some m =>
        dsimp only
        split
        · exact ⟨rfl, reply_not_handle _ _⟩
        · exact ⟨rfl, by simp⟩
    | _ => exact ⟨rfl, reply_not_handle _ _⟩

theorem rel_plain {p : Task.PC L S U} {r : Reader} {q : Prep Bytes} {w w' : World L S U} (hp : ∀ act h d, p ≠ .handle act h d)
    (hr : RelR f N rest r q) (hw : w' = { w with reader := q }) : Rel f N rest ⟨.plain p, r, w⟩ (p, w') := by
  subst hw; exact .plain hp hr

theorem place_plain {p : Task.PC L S U} {w : World L S U} {r : Reader} (hp : ∀ act h d, p ≠ .handle act h d) :
    place (p, w) r = ⟨.plain p, r, w⟩ := by
  unfold place
  cases p <;> simp_all

theorem rel_dispatch {r : Reader} {q : Prep Bytes} (hr : RelR f N rest r q) (w : World L S U) (l : Bytes) :
    Rel f N rest (place (Task.dispatch C w l) r) (Task.dispatch C { w with reader := q } l) := by
  obtain ⟨h1, h2⟩ := dispatch_reader (C := C) w q l
  rw [h1]
  rcases hd : Task.dispatch C w l with ⟨p, w'⟩
  rw [hd] at h2
  rw [place_plain h2]
  exact .plain h2 hr

theorem flush_reader (w : World L S U) (q : Prep Bytes) :
    Server.flush { w with reader := q } = ((Server.flush w).1, { (Server.flush w).2 with reader := q }) := by
  unfold Server.flush
  dsimp only
  split <;> rfl

theorem writeLine_reader (l : ReplyLine) (w : World L S U) (q : Prep Bytes) :
    Server.writeLine l { w with reader := q } = ((Server.writeLine l w).1, { (Server.writeLine l w).2 with reader := q }) := by
  unfold Server.writeLine
  split
  · rfl
  · dsimp only
    split <;> rfl

theorem rel_resume {r : Reader} {q : Prep Bytes} (hr : RelR f N rest r q) (w : World L S U) (a : Task.After L) :
    Rel f N rest (place (Task.resume C w a) r) (Task.resume C { w with reader := q } a) := by
  cases a with
  | next => exact .plain (p := .read []) (by simp) hr
  | setMail m => exact rel_plain (p := .read []) (by simp) hr rfl
  | handle m => exact .handle (w := { w with trace := w.trace ++ [.handleMail m] }) ⟨hr, rfl, rfl⟩

/-- Steps that have nothing to do with the connection. -/
theorem rel_other {p : Task.PC L S U} {r : Reader} {q : Prep Bytes} (hr : RelR f N rest r q) (w : World L S U)
    (hp : ∀ act h d, p ≠ .handle act h d) (hb : ∀ b, p ≠ .read b) :
    Rel f N rest (place (Task.step C (p, w)) r) (Task.step C (p, { w with reader := q })) := by
  cases p with
  | read b => exact absurd rfl (hb b)
  | handle act h d => exact absurd rfl (hp act h d)
  | over x => exact .over
  | newMail fr => exact rel_plain (p := .filterFrom fr) (by simp) hr rfl
  | filterFrom fr =>
    simp only [Task.step]
    rcases C.filterFrom w.cfg w.conn fr with ⟨_ | r', f', s, u⟩
    · rw [place_plain (reply_not_handle _ _)]; exact rel_plain (reply_not_handle _ _) hr rfl
    · rw [place_plain (reply_not_handle _ _)]; exact rel_plain (reply_not_handle _ _) hr rfl
  | filterTo t m =>
    simp only [Task.step]
    rcases C.filterTo w.cfg w.conn t m with ⟨_ | r', t', m', s, u⟩
    · rw [place_plain (reply_not_handle _ _)]; exact rel_plain (reply_not_handle _ _) hr rfl
    · rw [place_plain (reply_not_handle _ _)]; exact rel_plain (reply_not_handle _ _) hr rfl
  | filterData m =>
    simp only [Task.step]
    rcases C.filterData w.cfg w.conn m with ⟨_ | r', m', s, u⟩
    · rw [place_plain (reply_not_handle _ _)]; exact rel_plain (reply_not_handle _ _) hr rfl
    · rw [place_plain (reply_not_handle _ _)]; exact rel_plain (reply_not_handle _ _) hr rfl
  | send rp l a =>
    cases l with
    | nil =>
      simp only [Task.step, flush_reader]
      rcases Server.flush w with ⟨_ | _ | _ | _, w'⟩
      · exact rel_resume hr { w' with trace := w'.trace ++ [.reply rp] } a
      · exact .over
      · exact .over
      · exact .over
    | cons t ts =>
      simp only [Task.step]
      cases ReplyLine.build rp.1 (if ts.isEmpty then .yes else .no) t with
      | error e => exact .over
      | ok l =>
        dsimp only
        rw [writeLine_reader l w q]
        rcases Server.writeLine l w with ⟨_ | _ | _ | _, w'⟩
        · exact .plain (p := .send rp ts a) (by simp) hr
        · exact .over
        · exact .over
        · exact .over

/-- After a poll nothing is pushed back. -/
theorem poll_pre (f : Source) (r : Reader) : (r.poll f).2.pre = none := by
  unfold Reader.poll
  split
  · rfl
  · assumption

theorem rel_read (ho : OpenFor f N) {r : Reader} {q : Prep Bytes} (hr : RelR f N rest r q) (w : World L S U) (buf : Bytes)
    (hl : Like f N rest (r.poll f).2.polls) :
    Rel f N rest (step C f ⟨.plain (.read buf), r, w⟩) (Task.step C (.read buf, { w with reader := q })) := by
  obtain ⟨h1, h2⟩ := relR_poll ho hr hl
  have h3 := poll_pre f r
  simp only [step, Task.step]
  rcases hp : q.pollNext with ⟨a, q'⟩
  rcases hf : r.poll f with ⟨a', r'⟩
  rw [hp, hf] at h1 h2
  rw [hf] at h3
  dsimp only at h1 h2 h3
  subst h1
  have hpre := relR_prepend h2
  rcases a with (_ | pkt) | _
  · dsimp only
    have := hpre buf
    revert this
    rcases r'.prepend buf with _ | r'' <;> rcases q'.prepend buf with _ | q'' <;> intro this
    · exact .over
    · exact this.elim
    · exact this.elim
    · exact .over
  · dsimp only
    cases findCrlf (buf ++ pkt) with
    | none => exact rel_plain (p := .read (buf ++ pkt)) (by simp) h2 rfl
    | some pos =>
      dsimp only
      have := hpre ((buf ++ pkt).drop (pos + 2))
      revert this
      rcases r'.prepend ((buf ++ pkt).drop (pos + 2)) with _ | r'' <;> rcases q'.prepend ((buf ++ pkt).drop (pos + 2)) with _ | q'' <;>
        intro this
      · exact .over
      · exact this.elim
      · exact this.elim
      · exact rel_dispatch this.1 { w with trace := w.trace ++ [.line ((buf ++ pkt).take (pos + 2))] } _
  · exact rel_plain (p := .read buf) (by simp) h2 rfl

theorem more_polls (d : DS) (st : DState) : (d.more f st).2.reader = (d.reader.poll f).2 := by
  unfold DS.more
  rcases d.reader.poll f with ⟨(_ | b) | _, r⟩ <;> rfl

theorem more_rel (ho : OpenFor f N) {d : DS} {d' : DStream} (hd : RelD f N rest d d') (st : DState)
    (hl : Like f N rest (d.more f st).2.reader.polls) :
    match d.more f st, d'.source.pollNext with
    | (some .pending, e), (.pending, s) => RelD f N rest e { d' with source := s, state := st }
    | (some (.ready none), e), (.ready none, s) => RelD f N rest e { d' with source := s, state := .earlyFin }
    | (none, e), (.ready (some b), s) => RelD f N rest e { d' with source := s, state := st, buf := d'.buf ++ b }
    | _, _ => False := by
  rw [more_polls] at hl
  obtain ⟨h1, h2⟩ := relR_poll ho hd.reader hl
  unfold DS.more
  rcases hp : d'.source.pollNext with ⟨a, q'⟩
  rcases hf : d.reader.poll f with ⟨a', r'⟩
  rw [hp, hf] at h1 h2
  dsimp only at h1 h2
  subst h1
  rcases a with (_ | pkt) | _
  · exact ⟨h2, rfl, hd.buf⟩
  · exact ⟨h2, rfl, by rw [hd.buf]⟩
  · exact ⟨h2, rfl, hd.buf⟩

theorem turn_rel (ho : OpenFor f N) {d : DS} {d' : DStream} (hd : RelD f N rest d d')
    (hl : Like f N rest (d.turn f).2.reader.polls) :
    match d.turn f with
    | (some a, e) => d'.pollLoop.1 = a ∧ RelD f N rest e d'.pollLoop.2
    | (none, e) => ∃ e', (d'.pollLoop = e'.pollLoop ∧ e'.source.weight + e'.buf.length < d'.source.weight + d'.buf.length) ∧
        RelD f N rest e e' := by
  obtain ⟨h1, h2, h3⟩ := hd
  obtain ⟨src, st', buf'⟩ := d'
  dsimp only at h1 h2 h3
  subst h2 h3
  have hd : RelD f N rest d ⟨src, d.state, d.buf⟩ := ⟨h1, rfl, rfl⟩
  rw [DStream.pollLoop]
  unfold DS.turn at hl ⊢
  dsimp only
  rcases hs : scanBuf d.state d.buf with ⟨st, _ | x | x | x⟩
  · rw [hs] at hl
    dsimp only at hl ⊢
    by_cases hb : 0 < d.buf.length
    · rw [if_pos hb, if_pos hb]
      exact ⟨rfl, h1, rfl, rfl⟩
    · rw [if_neg hb] at hl
      rw [if_neg hb, if_neg hb]
      have := more_rel ho hd st hl
      revert this
      rcases d.more f st with ⟨_ | (_ | b) | _, e⟩ <;> rcases hsrc : src.pollNext with ⟨(_ | b') | _, s'⟩ <;> intro this <;>
        first
        | exact this.elim
        | exact ⟨rfl, this⟩
        | exact ⟨_, ⟨rfl, by have := Prep.weight_ready hsrc; simp; omega⟩, this⟩
  · dsimp only
    by_cases hb : 0 < (d.buf.take x).length
    · rw [if_pos hb, if_pos hb]
      exact ⟨rfl, h1, rfl, rfl⟩
    · rw [if_neg hb, if_neg hb]
      exact ⟨rfl, h1, rfl, rfl⟩
  · dsimp only
    by_cases hb : 0 < (d.buf.take x).length
    · rw [if_pos hb, if_pos hb]
      exact ⟨rfl, h1, rfl, rfl⟩
    · rw [if_neg hb, if_neg hb]
      exact ⟨_, ⟨rfl, by have := scanBuf_escape_lt hs; simp; omega⟩, h1, rfl, rfl⟩
  · rw [hs] at hl
    dsimp only at hl ⊢
    by_cases hb : 0 < x
    · rw [if_pos hb, if_pos hb]
      exact ⟨rfl, h1, rfl, rfl⟩
    · rw [if_neg hb] at hl
      rw [if_neg hb, if_neg hb]
      have := more_rel ho hd st hl
      revert this
      rcases d.more f st with ⟨_ | (_ | b) | _, e⟩ <;> rcases hsrc : src.pollNext with ⟨(_ | b') | _, s'⟩ <;> intro this <;>
        first
        | exact this.elim
        | exact ⟨rfl, this⟩
        | exact ⟨_, ⟨rfl, by have := Prep.weight_ready hsrc; simp; omega⟩, this⟩

theorem complete_rel {d : DS} {d' : DStream} (hd : RelD f N rest d d') :
    match d.complete, d'.complete with
    | .error p, .error p' => p = p'
    | .ok (b, e), .ok (b', e') => b = b' ∧ RelD f N rest e e' ∧ e.reader.polls = d.reader.polls
    | _, _ => False := by
  obtain ⟨h1, h2, h3⟩ := hd
  obtain ⟨src, st', buf'⟩ := d'
  dsimp only at h1 h2 h3
  subst h2 h3
  unfold DS.complete DStream.complete
  dsimp only
  by_cases ha : d.state = .earlyFin
  · rw [if_pos ha, if_pos ha]; exact ⟨rfl, ⟨h1, rfl, rfl⟩, rfl⟩
  · rw [if_neg ha, if_neg ha]
    by_cases hb : d.state ≠ .finished
    · rw [if_pos hb, if_pos hb]
    · rw [if_neg hb, if_neg hb]
      by_cases hc : d.buf ≠ []
      · rw [if_pos hc, if_pos hc]
        have := relR_prepend h1 d.buf
        revert this
        rcases d.reader.prepend d.buf with _ | r'' <;> rcases src.prepend d.buf with _ | q'' <;> intro this
        · rfl
        · exact this.elim
        · exact this.elim
        · exact ⟨rfl, ⟨this.1, rfl, rfl⟩, this.2⟩
      · rw [if_neg hc, if_neg hc]; exact ⟨rfl, ⟨h1, rfl, rfl⟩, rfl⟩

theorem place_input (x : Task.State L S U) (r : Reader) : (place x r).input = r := by
  obtain ⟨p, w⟩ := x
  cases p <;> rfl

theorem prepend_polls {r r' : Reader} {x : Bytes} (h : r.prepend x = some r') : r'.polls = r.polls := by
  unfold Reader.prepend at h
  split at h
  · cases h
  · cases h; rfl

theorem read_input (b : Bytes) (r : Reader) (w : World L S U) :
    (step C f ⟨.plain (.read b), r, w⟩).input.polls = (r.poll f).2.polls := by
  simp only [step]
  rcases r.poll f with ⟨(_ | pkt) | _, r'⟩
  · dsimp only
    cases h : r'.prepend b with
    | none => rfl
    | some r'' => exact prepend_polls h
  · dsimp only
    cases findCrlf (b ++ pkt) with
    | none => rfl
    | some pos =>
      dsimp only
      cases h : r'.prepend ((b ++ pkt).drop (pos + 2)) with
      | none => rfl
      | some r'' =>
        dsimp only
        rw [place_input]
        exact prepend_polls h
  · rfl

theorem poll_polls (r : Reader) : r.polls ≤ (r.poll f).2.polls ∧ (r.poll f).2.polls ≤ r.polls + 1 := by
  unfold Reader.poll
  split
  · exact ⟨Nat.le_refl _, Nat.le_succ _⟩
  · exact ⟨Nat.le_succ _, Nat.le_refl _⟩

theorem turn_polls (d : DS) : (d.turn f).2.reader = d.reader ∨ (d.turn f).2.reader = (d.reader.poll f).2 := by
  unfold DS.turn
  rcases scanBuf d.state d.buf with ⟨st, _ | x | x | x⟩ <;> dsimp only
  · split
    · exact .inl rfl
    · exact .inr (more_polls _ _)
  · exact .inl rfl
  · exact .inl rfl
  · split
    · exact .inl rfl
    · exact .inr (more_polls _ _)

theorem complete_polls {d e : DS} {b : Bool} (h : d.complete = .ok (b, e)) : e.reader.polls = d.reader.polls := by
  unfold DS.complete at h
  split at h
  · cases h; rfl
  · split at h
    · cases h
    · split at h
      · split at h
        · cases h; exact prepend_polls ‹_›
        · cases h
      · cases h; rfl

/-- A step polls the connection at most once. -/
theorem step_polls (C : Config L S U) (f : Source) (x : State L S U) :
    pollsOf x ≤ pollsOf (step C f x) ∧ pollsOf (step C f x) ≤ pollsOf x + 1 := by
  obtain ⟨pc, r, w⟩ := x
  unfold pollsOf
  cases pc with
  | plain p =>
    cases p with
    | read b => rw [read_input]; exact poll_polls r
    | _ => simp only [step, place_input]; exact ⟨Nat.le_refl _, Nat.le_succ _⟩
  | handle act h d =>
    simp only [step]
    cases act h with
    | poll => dsimp only; split <;> exact ⟨Nat.le_refl _, Nat.le_succ _⟩
    | complete =>
      dsimp only
      cases hc : d.complete with
      | error p => exact ⟨Nat.le_refl _, Nat.le_succ _⟩
      | ok z =>
        obtain ⟨b, e⟩ := z
        have := complete_polls hc
        simp only [State.input, this]
        exact ⟨Nat.le_refl _, Nat.le_succ _⟩
    | done dec s u => dsimp only; split <;> exact ⟨Nat.le_refl _, Nat.le_succ _⟩
  | polling act h d =>
    simp only [step]
    have h1 := turn_polls (f := f) d
    have h2 := poll_polls (f := f) d.reader
    rcases hd : d.turn f with ⟨_ | a, e⟩ <;> rw [hd] at h1 <;> dsimp only [State.input] at h1 ⊢ <;>
      rcases h1 with h1 | h1 <;> rw [h1] <;> omega

theorem after_polls (C : Config L S U) (f : Source) (out : BSink) (s : S) (u : U) {m n : Nat} (h : m ≤ n) :
    pollsOf (after C f out s u m) ≤ pollsOf (after C f out s u n) := by
  induction n with
  | zero => rw [show m = 0 by omega]; exact Nat.le_refl _
  | succ n ih =>
    rcases Nat.lt_or_ge n m with hm | hm
    · rw [show m = n + 1 by omega]; exact Nat.le_refl _
    · exact Nat.le_trans (ih hm) (step_polls C f _).1

/-- One step over the connection is none, or one step over the list. -/
theorem rel_step (ho : OpenFor f N) {x : State L S U} {y : Task.State L S U} (h : Rel f N rest x y)
    (hl : Like f N rest (pollsOf (step C f x))) :
    (Rel f N rest (step C f x) y ∧ ∃ act h d, (step C f x).pc = .polling act h d) ∨
    Rel f N rest (step C f x) (Task.step C y) := by
  cases h with
  | @plain p r w q hp hr =>
    right
    cases p with
    | read b =>
      exact rel_read ho hr w b (by rw [pollsOf, read_input] at hl; exact hl)
    | handle act h d => exact absurd rfl (hp act h d)
    | send => exact rel_other hr w (by simp) (by simp)
    | newMail g => exact rel_other (p := .newMail g) hr w (by simp) (by simp)
    | filterFrom => exact rel_other hr w (by simp) (by simp)
    | filterTo => exact rel_other hr w (by simp) (by simp)
    | filterData => exact rel_other hr w (by simp) (by simp)
    | over e => exact .over
  | over => right; exact .over
  | @handle act h d r w d' q hd =>
    simp only [step, Task.step] at hl ⊢
    cases ha : act h with
    | poll =>
      dsimp only
      by_cases hs : d.state = .finished
      · rw [if_pos hs]
        right
        have : d'.pollNext = (.ready none, d') := by unfold DStream.pollNext; rw [hd.state, if_pos hs]
        rw [this]
        exact .handle hd
      · rw [if_neg hs]
        left
        refine ⟨.polling ha (by rw [hd.state]; exact hs) ?_ hd, _, _, _, rfl⟩
        unfold DStream.pollNext; rw [hd.state, if_neg hs]
    | complete =>
      dsimp only
      right
      have := complete_rel hd
      revert this
      rcases d.complete with p | ⟨b, e⟩ <;> rcases d'.complete with p' | ⟨b', e'⟩ <;> intro this
      · dsimp only at this ⊢; subst this; exact .over
      · exact this.elim
      · exact this.elim
      · obtain ⟨rfl, h2, -⟩ := this
        exact .handle h2
    | done dec s u =>
      dsimp only
      right
      by_cases hs : d.state = .completed
      · rw [if_pos hs, if_pos (by unfold DStream.wasCompleted; rw [hd.state, hs]; rfl)]
        exact rel_plain (reply_not_handle _ _) hd.reader rfl
      · rw [if_neg hs, if_neg (by unfold DStream.wasCompleted; rw [hd.state]; simpa using hs)]
        exact .over
  | @polling act h d r w d0 d' q ha hs hp hd =>
    simp only [step, Task.step] at hl ⊢
    rw [ha]
    dsimp only
    have hl' : Like f N rest (d.turn f).2.reader.polls := by
      revert hl
      rcases d.turn f with ⟨_ | a, e⟩ <;> exact id
    have := turn_rel ho hd hl'
    rcases hf : d.turn f with ⟨_ | a, e⟩
    · rw [hf] at this
      obtain ⟨e', ⟨h1, -⟩, h2⟩ := this
      left
      exact ⟨.polling ha hs (hp.trans h1) h2, _, _, _, rfl⟩
    · rw [hf] at this
      obtain ⟨h1, h2⟩ := this
      right
      rw [hp, h1]
      exact .handle h2

theorem steps_succ (C : Config L S U) (n : Nat) (y : Task.State L S U) : Task.steps C (n + 1) y = Task.step C (Task.steps C n y) := by
  induction n generalizing y with
  | zero => rfl
  | succ n ih => rw [Task.steps, ih]; rfl

theorem rel_init (C : Config L S U) (f : Source) (N : Nat) (rest : List (SrcEv Bytes)) (out : BSink) (s : S) (u : U) :
    Rel f N rest (init C out s u) (Task.init C (heard f 0 N ++ rest) out s u) :=
  rel_plain (reply_not_handle _ _) ⟨rfl, rfl⟩ rfl

/-- The session over the connection goes through points of the session over the list. -/
theorem rel_after (ho : OpenFor f N) (C : Config L S U) (out : BSink) (s : S) (u : U) (n : Nat)
    (hl : Like f N rest (pollsOf (after C f out s u n))) :
    ∃ m, m ≤ n ∧ Rel f N rest (after C f out s u n) (Task.after C (heard f 0 N ++ rest) out s u m) := by
  induction n with
  | zero => exact ⟨0, Nat.le_refl _, rel_init C f N rest out s u⟩
  | succ n ih =>
    obtain ⟨m, hm, h⟩ := ih (hl.mono (after_polls C f out s u (Nat.le_succ n)))
    rcases rel_step ho h hl with ⟨h', -⟩ | h'
    · exact ⟨m, by omega, h'⟩
    · exact ⟨m + 1, by omega, by unfold Task.after; rw [steps_succ]; exact h'⟩

/-! ### What is still to come makes no difference -/

theorem poll_agree {f g : Source} {k : Nat} (hfg : ∀ i, i < k → f i = g i) {r : Reader} (h : (r.poll f).2.polls ≤ k) :
    r.poll f = r.poll g := by
  unfold Reader.poll at h ⊢
  revert h
  cases r.pre with
  | some b => exact fun _ => rfl
  | none => dsimp only; intro h; rw [hfg _ (by omega)]

theorem more_agree {f g : Source} {k : Nat} (hfg : ∀ i, i < k → f i = g i) {d : DS} {st : DState}
    (h : (d.more f st).2.reader.polls ≤ k) : d.more f st = d.more g st := by
  rw [more_polls] at h
  unfold DS.more
  rw [poll_agree hfg h]

theorem turn_agree {f g : Source} {k : Nat} (hfg : ∀ i, i < k → f i = g i) {d : DS} (h : (d.turn f).2.reader.polls ≤ k) :
    d.turn f = d.turn g := by
  unfold DS.turn at h ⊢
  revert h
  rcases scanBuf d.state d.buf with ⟨st, _ | x | x | x⟩ <;> intro h <;> dsimp only at h ⊢
  · split
    · rfl
    · rename_i hb; rw [if_neg hb] at h; exact more_agree hfg h
  · split
    · rfl
    · rename_i hb; rw [if_neg hb] at h; exact more_agree hfg h

theorem step_agree {f g : Source} {k : Nat} (hfg : ∀ i, i < k → f i = g i) (C : Config L S U) {x : State L S U}
    (h : pollsOf (step C f x) ≤ k) : step C f x = step C g x := by
  obtain ⟨pc, r, w⟩ := x
  cases pc with
  | plain p =>
    cases p with
    | read b =>
      rw [pollsOf, read_input] at h
      simp only [step]
      rw [poll_agree hfg h]
    | _ => rfl
  | handle act h d => rfl
  | polling act h' d =>
    have : (d.turn f).2.reader.polls ≤ k := by
      revert h
      simp only [step]
      rcases d.turn f with ⟨_ | a, e⟩ <;> exact id
    simp only [step]
    rw [turn_agree hfg this]

theorem after_agree {f g : Source} {k : Nat} (hfg : ∀ i, i < k → f i = g i) (C : Config L S U) (out : BSink) (s : S) (u : U) (n : Nat)
    (h : pollsOf (after C f out s u n) ≤ k) : after C f out s u n = after C g out s u n := by
  induction n with
  | zero => rfl
  | succ n ih =>
    have := ih (Nat.le_trans (after_polls C f out s u (Nat.le_succ n)) h)
    simp only [after] at h ⊢
    rw [step_agree hfg C h, this]

/-! ### The end -/

theorem over_after {e : Res Unit} {n : Nat} {out : BSink} {s : S} {u : U} (h : (after C f out s u n).pc = .plain (.over e)) (j : Nat) :
    after C f out s u (n + j) = after C f out s u n := by
  induction j with
  | zero => rfl
  | succ j ih =>
    rw [← Nat.add_assoc]
    simp only [after]
    rw [ih]
    rcases hx : after C f out s u n with ⟨pc, r, w⟩
    rw [hx] at h
    dsimp only at h
    subst h
    rfl

/-- The step which polls the connection at its end. -/
theorem step_end {x : State L S U} (he : f (pollsOf x) = .ready none) (hp : pollsOf (step C f x) ≠ pollsOf x) :
    (∃ b, x.pc = .plain (.read b) ∧ (step C f x).pc = .plain (.over (.ok ()))) ∨
    ∃ act h d e, x.pc = .polling act h d ∧ (step C f x).pc = .handle act (h ++ [.polled (.ready none)]) e ∧ e.state = .earlyFin ∧
      e.buf = d.buf := by
  obtain ⟨pc, r, w⟩ := x
  cases pc with
  | plain p =>
    cases p with
    | read b =>
      left
      rw [pollsOf, read_input] at hp
      obtain ⟨k, pre⟩ := r
      cases pre with
      | some item => exact absurd rfl hp
      | none =>
        refine ⟨b, rfl, ?_⟩
        have he' : f k = .ready none := he
        simp only [step, Reader.poll, he']
        rfl
    | _ => exact absurd (by simp only [step, pollsOf, place_input]; rfl) hp
  | handle act h d =>
    exfalso
    apply hp
    simp only [step, pollsOf]
    cases act h with
    | poll => dsimp only; split <;> rfl
    | complete =>
      dsimp only
      cases hc : d.complete with
      | error p => rfl
      | ok z => obtain ⟨b, e⟩ := z; exact complete_polls hc
    | done dec s u => dsimp only; split <;> rfl
  | polling act h d =>
    right
    have hm : ∀ st, d.reader.pre = none → d.more f st = (some (.ready none), ⟨⟨d.reader.polls + 1, none⟩, .earlyFin, d.buf⟩) := by
      intro st hpre
      have he' : f d.reader.polls = .ready none := he
      unfold DS.more Reader.poll
      rw [hpre]
      dsimp only
      rw [he']
    have hpre : d.reader.pre = none ∧ d.turn f = (some (.ready none), ⟨⟨d.reader.polls + 1, none⟩, .earlyFin, d.buf⟩) := by
      have hne : (d.turn f).2.reader.polls ≠ d.reader.polls := by
        intro hc
        apply hp
        revert hc
        simp only [step, pollsOf]
        rcases d.turn f with ⟨_ | a, e⟩ <;> exact id
      have hpre : d.reader.pre = none := by
        cases hh : d.reader.pre with
        | none => rfl
        | some b =>
          exfalso
          have h1 := turn_polls (f := f) d
          have h2 : (d.reader.poll f).2.polls = d.reader.polls := by unfold Reader.poll; rw [hh]
          rcases h1 with h1 | h1
          · exact hne (by rw [h1])
          · exact hne (by rw [h1, h2])
      refine ⟨hpre, ?_⟩
      unfold DS.turn at hne ⊢
      revert hne
      rcases scanBuf d.state d.buf with ⟨st, _ | x | x | x⟩ <;> intro hne <;> dsimp only at hne ⊢
      · split
        · rename_i hb; rw [if_pos hb] at hne; exact absurd rfl hne
        · exact hm st hpre
      · exact absurd rfl hne
      · exact absurd rfl hne
      · split
        · rename_i hb; rw [if_pos hb] at hne; exact absurd rfl hne
        · exact hm st hpre
    refine ⟨act, h, d, ⟨⟨d.reader.polls + 1, none⟩, .earlyFin, d.buf⟩, rfl, ?_, rfl, rfl⟩
    simp only [step]
    rw [hpre.2]

/-- If the connection was polled more than `N` times, some step made poll number `N`. -/
theorem crossing (C : Config L S U) (f : Source) (out : BSink) (s : S) (u : U) {N n : Nat} (h : N < pollsOf (after C f out s u n)) :
    ∃ n', n' < n ∧ pollsOf (after C f out s u n') = N ∧ pollsOf (after C f out s u (n' + 1)) = N + 1 := by
  induction n with
  | zero => exact absurd h (by show ¬ N < 0; omega)
  | succ n ih =>
    rcases Nat.lt_or_ge N (pollsOf (after C f out s u n)) with h1 | h1
    · obtain ⟨n', h2, h3⟩ := ih h1
      exact ⟨n', by omega, h3⟩
    · have h2 := step_polls C f (after C f out s u n)
      simp only [after] at h ⊢
      exact ⟨n, Nat.lt_succ_self n, by omega, by omega⟩

/-! ### Every point of the session over a list is reached -/

/-- `j` steps. -/
def stepN (C : Config L S U) (f : Source) : Nat → State L S U → State L S U
  | 0, x => x
  | j + 1, x => stepN C f j (step C f x)

theorem stepN_after (C : Config L S U) (f : Source) (out : BSink) (s : S) (u : U) (j n : Nat) :
    stepN C f j (after C f out s u n) = after C f out s u (n + j) := by
  induction j generalizing n with
  | zero => rfl
  | succ j ih =>
    rw [stepN, show step C f (after C f out s u n) = after C f out s u (n + 1) from rfl, ih, Nat.add_assoc, Nat.add_comm 1]

theorem progress_polling (ho : OpenFor f N) (hall : ∀ k, Like f N rest k) {act : List HObs → HAct S U} {h : List HObs}
    {r : Reader} {w : World L S U} {d0 : DStream} {q : Prep Bytes} (ha : act h = .poll) (hs : d0.state ≠ .finished) (M : Nat) :
    ∀ {d : DS} {d' : DStream}, d'.source.weight + d'.buf.length < M → d0.pollNext = DStream.pollLoop d' → RelD f N rest d d' →
    ∃ j, Rel f N rest (stepN C f j ⟨.polling act h d, r, w⟩) (Task.step C (.handle act h d0, { w with reader := q })) := by
  induction M with
  | zero => intro d d' hm; omega
  | succ M ih =>
    intro d d' hm hp hd
    have := turn_rel ho hd (hall _)
    rcases hf : d.turn f with ⟨_ | a, e⟩
    · rw [hf] at this
      obtain ⟨e', ⟨h1, h2⟩, h3⟩ := this
      obtain ⟨j, hj⟩ := ih (by omega) (hp.trans h1) h3
      refine ⟨j + 1, ?_⟩
      rw [stepN]
      have : step C f ⟨.polling act h d, r, w⟩ = ⟨.polling act h e, r, w⟩ := by simp only [step]; rw [hf]
      rw [this]
      exact hj
    · rw [hf] at this
      obtain ⟨h1, h2⟩ := this
      refine ⟨1, ?_⟩
      simp only [stepN, step, Task.step]
      rw [hf, ha, hp, h1]
      exact .handle h2

theorem progress (ho : OpenFor f N) (hall : ∀ k, Like f N rest k) {x : State L S U} {y : Task.State L S U} (h : Rel f N rest x y) :
    ∃ j, Rel f N rest (stepN C f j x) (Task.step C y) := by
  have hpoll : ∀ {x : State L S U}, Rel f N rest x y → (∃ act h d, x.pc = .polling act h d) →
      ∃ j, Rel f N rest (stepN C f j x) (Task.step C y) := by
    intro x h hx
    cases h with
    | plain => obtain ⟨_, _, _, hx⟩ := hx; cases hx
    | over => obtain ⟨_, _, _, hx⟩ := hx; cases hx
    | handle => obtain ⟨_, _, _, hx⟩ := hx; cases hx
    | polling ha hs hp hd => exact progress_polling ho hall ha hs _ (Nat.lt_succ_self _) hp hd
  rcases rel_step (C := C) ho h (hall _) with ⟨h1, h2⟩ | h1
  · obtain ⟨j, hj⟩ := hpoll h1 h2
    exact ⟨j + 1, hj⟩
  · exact ⟨1, h1⟩

theorem every_point (ho : OpenFor f N) (hall : ∀ k, Like f N rest k) (C : Config L S U) (out : BSink) (s : S) (u : U) (m : Nat) :
    ∃ n, Rel f N rest (after C f out s u n) (Task.after C (heard f 0 N ++ rest) out s u m) := by
  induction m with
  | zero => exact ⟨0, rel_init C f N rest out s u⟩
  | succ m ih =>
    obtain ⟨n, h⟩ := ih
    obtain ⟨j, hj⟩ := progress (C := C) ho hall h
    rw [stepN_after] at hj
    exact ⟨n + j, by unfold Task.after; rw [steps_succ]; exact hj⟩

/-! ### Lists as connections -/

theorem ofList_open (evs : List (SrcEv Bytes)) : OpenFor (ofList evs) evs.length := by
  intro i hi
  unfold ofList
  rw [List.getElem?_eq_getElem hi]
  cases evs[i] <;> simp

theorem ofList_end (evs : List (SrcEv Bytes)) {i : Nat} (h : evs.length ≤ i) : ofList evs i = .ready none := by
  unfold ofList
  rw [List.getElem?_eq_none h]

theorem ofList_heard (evs : List (SrcEv Bytes)) : heard (ofList evs) 0 evs.length = evs := by
  have : ∀ n k, k + n = evs.length → heard (ofList evs) k n = evs.drop k := by
    intro n
    induction n with
    | zero => intro k hk; rw [heard_zero, List.drop_eq_nil_of_le (by omega)]
    | succ n ih =>
      intro k hk
      rw [heard_succ, ih (k + 1) (by omega), List.drop_eq_getElem_cons (i := k) (by omega)]
      have : ofList evs k = match evs[k]'(by omega) with | .pending => .pending | .pkt b => .ready (some b) := by
        unfold ofList
        rw [List.getElem?_eq_getElem (by omega)]
        cases evs[k]'(by omega) <;> rfl
      rw [this]
      cases evs[k]'(by omega) <;> rfl
  rw [this evs.length 0 (by omega)]
  rfl

/-! ### Sessions that end -/

theorem reply_not_over (r : Reply) (a : Task.After L) : (Task.reply r a : Task.PC L S U) ≠ .over (.ok ()) := by
  unfold Task.reply
  split <;> simp

theorem dispatch_not_over (w : World L S U) (l : Bytes) : (Task.dispatch C w l).1 ≠ .over (.ok ()) := by
  unfold Task.dispatch
  split
  · split
    · exact reply_not_over _ _
    · simp
  · split
    · simp
    · exact reply_not_over _ _
  · split
    · split
      · exact reply_not_over _ _
      · simp
    · exact reply_not_over _ _
  · exact reply_not_over _ _
  · exact reply_not_over _ _

theorem place_not_over {x : Task.State L S U} {r : Reader} (h : x.1 ≠ .over (.ok ())) : (place x r).pc ≠ .plain (.over (.ok ())) := by
  obtain ⟨p, w⟩ := x
  cases p <;> simp_all [place]

theorem resume_not_over (w : World L S U) (a : Task.After L) : (Task.resume C w a).1 ≠ .over (.ok ()) := by
  cases a <;> simp [Task.resume]

/-- A pushed-back item is read before the connection is. -/
theorem step_ok_pre {b : Bytes} {r : Reader} {w : World L S U} {item : Bytes} (hr : r.pre = some item)
    (h : (step C f ⟨.plain (.read b), r, w⟩).pc = .plain (.over (.ok ()))) : False := by
  simp only [step, Reader.poll, hr] at h
  cases hc : findCrlf (b ++ item) with
  | none => rw [hc] at h; cases h
  | some pos =>
    rw [hc] at h
    dsimp only [Reader.prepend] at h
    exact absurd h (place_not_over (dispatch_not_over _ _))

theorem step_ok {x : State L S U} (h : (step C f x).pc = .plain (.over (.ok ()))) :
    step C f x = x ∨ (f (pollsOf x) = .ready none ∧ pollsOf (step C f x) = pollsOf x + 1) := by
  obtain ⟨pc, r, w⟩ := x
  cases pc with
  | plain p =>
    have hcon : ∀ z : Task.State L S U, z.1 ≠ .over (.ok ()) → (place z r).pc ≠ .plain (.over (.ok ())) := fun z => place_not_over
    cases p with
    | over e => exact .inl rfl
    | read b =>
      right
      obtain ⟨k, pre⟩ := r
      cases pre with
      | some item => exact (step_ok_pre rfl h).elim
      | none =>
        refine ⟨?_, by rw [pollsOf, read_input]; rfl⟩
        show f k = _
        simp only [step, Reader.poll] at h
        rcases hf : f k with (_ | pkt) | _
        · rfl
        · rw [hf] at h
          dsimp only at h
          cases hc : findCrlf (b ++ pkt) with
          | none => rw [hc] at h; cases h
          | some pos =>
            rw [hc] at h
            dsimp only [Reader.prepend] at h
            exact absurd h (place_not_over (dispatch_not_over _ _))
        · rw [hf] at h
          cases h
    | handle act h' d =>
      exfalso
      revert h
      simp only [step]
      refine hcon _ ?_
      simp only [Task.step]
      cases act h' with
      | poll => simp
      | complete => dsimp only; split <;> simp
      | done => dsimp only; split <;> first | exact reply_not_over _ _ | simp
    | send rp l a =>
      exfalso
      revert h
      simp only [step]
      refine hcon _ ?_
      cases l with
      | nil =>
        simp only [Task.step]
        split
        · exact resume_not_over _ _
        · simp
        · simp
        · simp
      | cons t ts =>
        simp only [Task.step]
        split
        · simp
        · split <;> simp
    | newMail => exfalso; revert h; exact hcon _ (by simp [Task.step])
    | filterFrom => exfalso; revert h; refine hcon _ ?_; simp only [Task.step]; split <;> exact reply_not_over _ _
    | filterTo => exfalso; revert h; refine hcon _ ?_; simp only [Task.step]; split <;> exact reply_not_over _ _
    | filterData => exfalso; revert h; refine hcon _ ?_; simp only [Task.step]; split <;> exact reply_not_over _ _
  | handle act h' d =>
    exfalso
    revert h
    simp only [step]
    cases act h' with
    | poll => dsimp only; split <;> simp
    | complete => dsimp only; split <;> simp
    | done =>
      dsimp only
      split
      · simp only [PC.plain.injEq]; exact reply_not_over _ _
      · simp
  | polling act h' d =>
    exfalso
    revert h
    simp only [step]
    rcases d.turn f with ⟨_ | a, e⟩ <;> simp

theorem starve {act : List HObs → HAct S U} {h : List HObs} {k : Nat} {st : DState} {r : Reader} {w : World L S U}
    (hf : f k = .ready (some [])) : step C f ⟨.polling act h ⟨⟨k, none⟩, st, []⟩, r, w⟩ = ⟨.polling act h ⟨⟨k + 1, none⟩, st, []⟩, r, w⟩ := by
  have : scanBuf st [] = (st, .nowhere) := by cases st <;> rfl
  simp only [step, DS.turn, this]
  simp only [DS.more, Reader.poll, hf]
  rfl

end Verif.AnySource
