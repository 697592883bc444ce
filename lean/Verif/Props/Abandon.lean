import Verif.Props.Sink
/-
C88: what a `send` of a `DataSink` leaves behind when it fails, or when its future is dropped while it waits for the
underlying sink, and what happens if the caller goes on all the same.

A dropped future has the same effects as an error: the item being sent was either not yet taken by the underlying sink
(`errDropped`) or already taken and not yet flushed (`errAccepted`), and `DataSink::send` executes nothing after that point
(data/sink.rs:46, 51). The field `state` has been advanced before (data/sink.rs:32-42).
-/
namespace Verif
open Spec

namespace Spec

/-- Where the next byte after the text `t` stands. -/
inductive Place where
  | lineStart
  | afterCr
  | inLine
deriving DecidableEq

/-- The next byte after `t` starts a line, follows a CR, or neither. -/
def placeOf (t : Bytes) : Place :=
  if t = [] ∨ crlf <:+ t then .lineStart else if [13] <:+ t then .afterCr else .inLine

/-- Going on from `k` is right after the text `t`: on a connection that works from now on, whatever chunks are sent before
`end()`, what is written makes the stuffed `t` into the wire form of `t` and the chunks. -/
def Continues (k : DSink) (t : Bytes) : Prop :=
  ∀ (chunks out : List Bytes), ∃ k' s' new, ({ k with sink := ⟨out, []⟩ } : DSink).sendAll chunks = some (true, k') ∧
    k'.finish = (true, s') ∧ s'.out = out ++ new ∧ stuff t ++ new.flatten = wireForm (t ++ chunks.flatten)

/-- No dot of `x`, coming after the text `t`, starts a line. -/
def NoLeadingDot (t x : Bytes) : Prop := ∀ y z, x = y ++ 46 :: z → placeOf (t ++ y) ≠ .lineStart

/-- `p` is what `send` hands to the connection first, of a chunk `c` that follows the text `t`: everything up to and including
the first dot that starts a line, or the whole chunk if there is none. -/
def FirstPiece (t p c : Bytes) : Prop :=
  (p = c ∧ NoLeadingDot t c) ∨
  ∃ x b, p = x ++ [46] ∧ c = p ++ b ∧ NoLeadingDot t x ∧ placeOf (t ++ x) = .lineStart

end Spec

/-! ### The state of the encoder is the place in the text -/

def Spec.Place.state : Place → KState
  | .lineStart => .crLfPassed
  | .afterCr => .crPassed
  | .inLine => .running

theorem encode_place (t : Bytes) : (encode .crLfPassed t).2 = (placeOf t).state := by
  have h := (encode_stuff t).2
  unfold placeOf
  by_cases h1 : t = [] ∨ crlf <:+ t
  · rw [if_pos h1]; exact h.2 h1
  · rw [if_neg h1]
    have h2 := mt h.1 h1
    rcases List.eq_nil_or_concat t with rfl | ⟨x, c, rfl⟩
    · simp at h1
    · have e : ([13] : Bytes) <:+ x ++ [c] ↔ c = 13 := by
        constructor
        · rintro ⟨y, hy⟩
          have := congrArg List.getLast? hy
          simp at this; exact this.symm
        · rintro rfl; exact ⟨x, rfl⟩
      rw [List.concat_eq_append] at *
      rw [encode_append] at h2 ⊢
      simp only [encode] at h2 ⊢
      by_cases hc : c = 13
      · rw [if_pos (e.2 hc)]
        subst hc
        simp [KState.next, Spec.Place.state]
      · rw [if_neg (fun h => hc (e.1 h))]
        split
        · rfl
        · rename_i hn
          rw [if_neg hn] at h2
          simp only [encode, KState.next] at h2 ⊢
          rw [if_neg hc] at h2 ⊢
          split
          · rename_i hh; rw [if_pos hh] at h2; simp at h2
          · rfl

theorem Spec.Place.state_inj {a b : Place} : a.state = b.state ↔ a = b := by
  cases a <;> cases b <;> simp [Spec.Place.state]

private theorem encode_length (st : KState) (x : Bytes) : x.length ≤ (encode st x).1.length := by
  induction x generalizing st with
  | nil => simp
  | cons c x ih =>
    rw [encode]
    split
    · have := ih .running; simp; omega
    · have := ih (st.next c); simp; omega

private theorem noLeadingDot_of {t x : Bytes} (h : (encode (encode .crLfPassed t).2 x).1 = x) : NoLeadingDot t x := by
  rintro y z rfl hp
  have h1 : (encode (encode .crLfPassed t).2 y).2 = .crLfPassed := by
    have := encode_place (t ++ y)
    rw [encode_append] at this
    rw [show (encode (encode .crLfPassed t).2 y).2 = _ from this, hp]; rfl
  rw [encode_append, h1] at h
  have h2 := congrArg List.length h
  have h3 := encode_length (encode .crLfPassed t).2 y
  have h4 := encode_length .running z
  simp [encode] at h2
  omega

private theorem send_plain {s : BSink} (h : s.plan = []) (item : Bytes) : s.send item = (true, ⟨s.out ++ [item], []⟩) := by
  unfold BSink.send
  rw [h]

private theorem sendLoop_allOk (fuel : Nat) (k : DSink) (item : Bytes) (h : ∀ r ∈ k.sink.plan, r = .ok) (k' : DSink) :
    DSink.sendLoop fuel k item ≠ some (false, k') := by
  have hsend : ∀ (s : BSink) item, (∀ r ∈ s.plan, r = .ok) →
      ∃ s', s.send item = (true, s') ∧ ∀ r ∈ s'.plan, r = .ok := by
    intro s item h
    unfold BSink.send
    split
    · exact ⟨_, rfl, h⟩
    · rename_i p hp; rw [hp] at h; exact ⟨_, rfl, fun r hr => h r (by simp [hr])⟩
    · rename_i p hp; rw [hp] at h; exact absurd (h .errDropped (by simp)) (by simp)
    · rename_i p hp; rw [hp] at h; exact absurd (h .errAccepted (by simp)) (by simp)
  induction fuel generalizing k item with
  | zero => simp [DSink.sendLoop]
  | succ fuel ih =>
    rw [DSink.sendLoop]
    split
    · obtain ⟨s', h1, h2⟩ := hsend k.sink item h
      rw [h1]; simp
    · rename_i st pos _
      obtain ⟨s', h1, h2⟩ := hsend k.sink (item.take (pos + 1)) h
      rw [h1]
      exact ih { sink := s', state := st } _ h2

private theorem sendLoop_plain (fuel : Nat) (k : DSink) (item : Bytes) (h : k.sink.plan = []) :
    DSink.sendLoop fuel k item = none ∨ ∃ k', DSink.sendLoop fuel k item = some (true, k') ∧ k'.sink.plan = [] := by
  induction fuel generalizing k item with
  | zero => left; rfl
  | succ fuel ih =>
    rw [DSink.sendLoop]
    split
    · rw [send_plain h]
      right; exact ⟨_, rfl, rfl⟩
    · rw [send_plain h]
      simp only [if_true]
      exact ih _ _ rfl

private theorem sendAll_plain (chunks : List Bytes) (k : DSink) (h : k.sink.plan = []) :
    ∃ k', k.sendAll chunks = some (true, k') ∧ k'.sink.plan = [] := by
  induction chunks generalizing k with
  | nil => exact ⟨k, rfl, h⟩
  | cons c cs ih =>
    have h1 := send_ok k c
    rcases sendLoop_plain (c.length + 2) k c h with h2 | ⟨k', h2, h3⟩
    · unfold DSink.send at h1; rw [h2] at h1; exact absurd h1 (by simp [SendOk])
    · obtain ⟨k2, h4, h5⟩ := ih k' h3
      refine ⟨k2, ?_, h5⟩
      rw [DSink.sendAll]
      unfold DSink.send
      rw [h2]; exact h4

private theorem wire_encode (m : Bytes) :
    wireForm m = (encode .crLfPassed m).1 ++ DSink.endBytes (encode .crLfPassed m).2 := by
  have h := encode_stuff m
  unfold wireForm
  rw [h.1]
  congr 1
  by_cases hm : m = [] ∨ crlf <:+ m
  · rw [if_pos hm, h.2.2 hm]; rfl
  · rw [if_neg hm]
    have := mt h.2.1 hm
    cases hs : (encode .crLfPassed m).2 <;> simp [hs] at this <;> rfl

private theorem finish_from (k : DSink) (chunks out : List Bytes) :
    ∃ k' s' new, ({ k with sink := ⟨out, []⟩ } : DSink).sendAll chunks = some (true, k') ∧ k'.finish = (true, s') ∧
      s'.out = out ++ new ∧
      new.flatten = (encode k.state chunks.flatten).1 ++ DSink.endBytes (encode k.state chunks.flatten).2 := by
  obtain ⟨k', h1, h2⟩ := sendAll_plain chunks { k with sink := ⟨out, []⟩ } rfl
  have h3 := sendAll_ok { k with sink := ⟨out, []⟩ } chunks
  rw [h1] at h3
  obtain ⟨new, h4, h5⟩ := h3
  refine ⟨k', _, new ++ [DSink.endBytes k'.state], h1, send_plain h2 _, by simp [h4], ?_⟩
  simp only at h5
  rw [← h5]; simp

/-- Going on is right exactly if the encoder's idea of its place is the place in the text. -/
theorem continues_iff (k : DSink) (t : Bytes) : Continues k t ↔ k.state = (placeOf t).state := by
  have key : ∀ m, wireForm (t ++ m) = stuff t ++ ((encode (placeOf t).state m).1 ++
      DSink.endBytes (encode (placeOf t).state m).2) := by
    intro m
    rw [wire_encode, encode_append, ← encode_place, (encode_stuff t).1]; simp
  constructor
  · intro h
    obtain ⟨k1, s1, new1, h1, h2, h3, h4⟩ := h [b!"\n."] []
    obtain ⟨k2, s2, new2, g1, g2, g3, g4⟩ := finish_from k [b!"\n."] []
    rw [h1] at g1; cases g1
    rw [h2] at g2; cases g2
    rw [h3] at g3
    have e1 : new1 = new2 := by simpa using g3
    subst e1
    obtain ⟨k1, s1, new3, h1, h2, h3, h5⟩ := h [b!"."] []
    obtain ⟨k2, s2, new4, g1, g2, g3, g5⟩ := finish_from k [b!"."] []
    rw [h1] at g1; cases g1
    rw [h2] at g2; cases g2
    rw [h3] at g3
    have e1 : new3 = new4 := by simpa using g3
    subst e1
    rw [key, g4, List.append_cancel_left_eq] at h4
    rw [key, g5, List.append_cancel_left_eq] at h5
    revert h4 h5
    cases k.state <;> cases placeOf t <;> decide
  · intro h chunks out
    obtain ⟨k', s', new, h1, h2, h3, h4⟩ := finish_from k chunks out
    exact ⟨k', s', new, h1, h2, h3, by rw [key, h4, h]⟩

/-! ### What a failed send leaves behind -/

/-- Everything that can have happened when `send` of `c` fails. -/
inductive Failed (k : DSink) (c : Bytes) (new : Bytes) (k' : DSink) : Prop
  | whole (h1 : new = (encode k.state c).1) (h2 : k'.state = (encode k.state c).2)
  | nothing (p : Bytes) (h1 : new = [])
      (h2 : (p = c ∧ (encode k.state c).1 = c) ∨ ∃ x b, p = x ++ [46] ∧ c = p ++ b ∧ encode k.state x = (x, .crLfPassed))
      (h3 : k'.state = (encode k.state p).2)
  | half (a b : Bytes) (h1 : c = a ++ 46 :: b) (h2 : (encode k.state a).2 = .crLfPassed)
      (h3 : new = (encode k.state a).1 ++ [46])

theorem sendLoop_failed (fuel : Nat) (k k' : DSink) (item : Bytes) (h : DSink.sendLoop fuel k item = some (false, k')) :
    ∃ new, k'.sink.out = k.sink.out ++ new ∧ Failed k item new.flatten k' := by
  induction fuel generalizing k item with
  | zero => cases h
  | succ fuel ih =>
    rw [DSink.sendLoop] at h
    have hs := sinkScan_spec k.state 0 item
    rcases hsc : sinkScan k.state 0 item with ⟨st, _ | pos⟩
    · rw [hsc] at hs h
      simp only at hs h
      rcases k.sink.send_cases item with ⟨s', h1, h2⟩ | ⟨s', h1, h2⟩
      · rw [h1] at h; cases h
      · rw [h1] at h
        cases h
        rcases h2 with h2 | h2
        · exact ⟨[], by simp [h2], .nothing item (by simp) (.inl ⟨rfl, by rw [hs]⟩) (by rw [hs])⟩
        · exact ⟨[item], by simp [h2], .whole (by simp [hs]) (by simp [hs])⟩
    · rw [hsc] at hs h
      simp only at hs h
      obtain ⟨a, b, rfl, rfl, rfl, he⟩ := hs
      have htake : (a ++ cDOT :: b).take (0 + a.length + 1) = a ++ [cDOT] := by
        rw [List.take_append, List.take_of_length_le (by omega)]; simp
      have hdrop : (a ++ cDOT :: b).drop (0 + a.length) = cDOT :: b := by simp
      have henc : encode k.state (a ++ cDOT :: b)
          = (a ++ [cDOT] ++ (encode .running (cDOT :: b)).1, (encode .running (cDOT :: b)).2) := by
        rw [encode_append, he]
        simp [encode, KState.next]
      rw [htake, hdrop] at h
      rcases k.sink.send_cases (a ++ [cDOT]) with ⟨s', h1, h2⟩ | ⟨s', h1, h2⟩
      · rw [h1] at h
        simp only [if_true] at h
        obtain ⟨new, h3, h4⟩ := ih _ _ h
        refine ⟨[a ++ [cDOT]] ++ new, by simp [h3, h2], ?_⟩
        cases h4 with
        | whole g1 g2 =>
          refine .whole ?_ ?_
          · rw [henc]; simpa using g1
          · rw [henc]; exact g2
        | nothing p g1 g2 g3 =>
          refine .half a b rfl (by rw [he]) ?_
          rw [he]; simpa using g1
        | half a' b' g1 g2 g3 =>
          match a', g1 with
          | [], _ => simp [encode] at g2
          | d :: a', g1 =>
            simp only [List.cons_append, List.cons.injEq] at g1
            obtain ⟨rfl, rfl⟩ := g1
            have e2 : encode .running (cDOT :: a') = (cDOT :: (encode .running a').1, (encode .running a').2) := by
              simp [encode, KState.next]
            have e3 : encode .crLfPassed (cDOT :: a') = (cDOT :: cDOT :: (encode .running a').1, (encode .running a').2) := by
              simp [encode]
            simp only at g2 g3
            rw [e2] at g2 g3
            refine .half (a ++ cDOT :: a') b' (by simp) ?_ ?_
            · rw [encode_append, he]
              simp only
              rw [e3]; exact g2
            · rw [encode_append, he]
              simp only
              rw [e3]
              simp only [List.flatten_append, g3]
              simp
      · rw [h1] at h
        cases h
        rcases h2 with h2 | h2
        · refine ⟨[], by simp [h2], .nothing (a ++ [cDOT]) (by simp) (.inr ⟨a, b, rfl, by simp, he⟩) ?_⟩
          rw [encode_append, he]; simp [encode]
        · exact ⟨[a ++ [cDOT]], by simp [h2], .half a b rfl (by rw [he]) (by rw [he]; simp)⟩

private theorem lineStart_iff {t : Bytes} : placeOf t = .lineStart ↔ (t = [] ∨ crlf <:+ t) := by
  unfold placeOf
  by_cases h : t = [] ∨ crlf <:+ t
  · simp [h]
  · rw [if_neg h]
    split <;> simp [h]

/-- A lone dot after a complete line is not the stuffed form of any text. -/
theorem not_stuffed {t : Bytes} (h : placeOf t = .lineStart) (m : Bytes) : stuff t ++ b!"." ≠ stuff m := by
  intro hm
  have ht := lineStart_iff.1 h
  by_cases hl : m = [] ∨ crlf <:+ m
  · rcases hl with rfl | ⟨x, rfl⟩
    · simp [stuff, splitCrlf, joinCrlf, addDot] at hm
    · rw [← (encode_stuff (x ++ crlf)).1, encode_append, encode_crlf] at hm
      have := congrArg List.getLast? hm
      simp at this
  · have e : wireForm m = wireForm t ++ b!".\r\n" := by
      unfold wireForm
      rw [if_neg hl, if_pos ht, ← hm]; simp
    have h1 := (c09_marker_only_at_end t (wireForm t) [] (by simp)).2 rfl
    have h2 := (c09_marker_only_at_end m (wireForm t) _ e).1 h1
    simp at h2

/-- C88. After the text `t` was sent well, a send of the chunk `c` fails or is dropped. Then one of three things is the case.
Either the connection has taken the whole chunk, and going on is right. Or it has taken nothing of the chunk; then going on
is right only if the piece that was not taken would not have changed the place in the line. Or it has taken the chunk up to
the first of two dots: what was written is not the stuffed form of any text. -/
theorem c88_failed_send (s : BSink) (chunks : List Bytes) (c : Bytes) (k k' : DSink)
    (h : (DSink.new s).sendAll chunks = some (true, k)) (hf : k.send c = some (false, k')) :
    ∃ w, k'.sink.out.flatten = s.out.flatten ++ w ∧
      ((w = stuff (chunks.flatten ++ c) ∧ Continues k' (chunks.flatten ++ c)) ∨
       (w = stuff chunks.flatten ∧ ∃ p, FirstPiece chunks.flatten p c ∧
          (Continues k' chunks.flatten ↔ placeOf (chunks.flatten ++ p) = placeOf chunks.flatten)) ∨
       (∃ a b, c = a ++ 46 :: b ∧ placeOf (chunks.flatten ++ a) = .lineStart ∧ w = stuff (chunks.flatten ++ a) ++ b!"." ∧
          ∀ m, w ≠ stuff m)) := by
  have hk := sendAll_ok (DSink.new s) chunks
  rw [h] at hk
  obtain ⟨new, h1, h2⟩ := hk
  have hst : stuff chunks.flatten = (encode .crLfPassed chunks.flatten).1 := ((encode_stuff _).1).symm
  change (new.flatten, k.state) = encode .crLfPassed chunks.flatten at h2
  have hks : k.state = (encode .crLfPassed chunks.flatten).2 := by rw [← h2]
  have happ : ∀ x, encode .crLfPassed (chunks.flatten ++ x) = (new.flatten ++ (encode k.state x).1, (encode k.state x).2) := by
    intro x; rw [encode_append, ← h2]
  obtain ⟨new', g1, g2⟩ := sendLoop_failed _ k k' c hf
  refine ⟨new.flatten ++ new'.flatten, by rw [g1, h1]; simp [DSink.new], ?_⟩
  cases g2 with
  | whole f1 f2 =>
    left
    refine ⟨by rw [← (encode_stuff _).1, happ, f1], ?_⟩
    rw [continues_iff, ← encode_place, happ, f2]
  | nothing p f1 f2 f3 =>
    right; left
    refine ⟨by rw [f1, hst, ← h2]; simp, p, ?_, ?_⟩
    · rcases f2 with ⟨rfl, f2⟩ | ⟨x, b, e1, e2, f2⟩
      · exact .inl ⟨rfl, noLeadingDot_of (by rw [← hks]; exact f2)⟩
      · refine .inr ⟨x, b, e1, e2, noLeadingDot_of (by rw [← hks, f2]), ?_⟩
        have := encode_place (chunks.flatten ++ x)
        rw [happ, f2] at this
        exact (Spec.Place.state_inj (b := .lineStart)).1 this.symm
    · rw [continues_iff, f3, ← Spec.Place.state_inj, ← encode_place (chunks.flatten ++ p), happ]
  | half a b f1 f2 f3 =>
    right; right
    refine ⟨a, b, f1, ?_, ?_, ?_⟩
    · have := encode_place (chunks.flatten ++ a)
      rw [happ, f2] at this
      exact (Spec.Place.state_inj (b := .lineStart)).1 this.symm
    · rw [f3, ← (encode_stuff _).1, happ]; simp
    · intro m hm
      have hl : placeOf (chunks.flatten ++ a) = .lineStart := by
        have := encode_place (chunks.flatten ++ a)
        rw [happ, f2] at this
        exact (Spec.Place.state_inj (b := .lineStart)).1 this.symm
      refine not_stuffed hl m ?_
      rw [← hm, f3, ← (encode_stuff _).1, happ]; simp

/-- C88. Whatever happens in a failed or dropped send: what has been written is a prefix of the stuffed text and holds no
end-of-data marker. A caller who gives the connection up now does no harm. -/
theorem c88_abandon (s : BSink) (chunks : List Bytes) (c : Bytes) (k k' : DSink)
    (h : (DSink.new s).sendAll chunks = some (true, k)) (hf : k.send c = some (false, k')) :
    ∃ w, k'.sink.out.flatten = s.out.flatten ++ w ∧ w <+: stuff (chunks.flatten ++ c) ∧ ¬ HasMarker w := by
  have hk := sendAll_ok (DSink.new s) chunks
  rw [h] at hk
  obtain ⟨new, h1, h2⟩ := hk
  have h3 := send_ok k c
  rw [hf] at h3
  obtain ⟨new', h4, h5⟩ := h3
  change (new.flatten, k.state) = encode .crLfPassed chunks.flatten at h2
  have hp : new.flatten ++ new'.flatten <+: stuff (chunks.flatten ++ c) := by
    rw [← (encode_stuff _).1, encode_append, ← h2]
    exact List.prefix_append_right_inj _ |>.2 h5
  refine ⟨new.flatten ++ new'.flatten, by rw [h4, h1]; simp [DSink.new], hp, ?_⟩
  intro hm
  obtain ⟨z, hz⟩ := hp
  have e : wireForm (chunks.flatten ++ c) = (new.flatten ++ new'.flatten) ++ (z ++
      (if chunks.flatten ++ c = [] ∨ crlf <:+ chunks.flatten ++ c then b!".\r\n" else b!"\r\n.\r\n")) := by
    unfold wireForm
    rw [← hz]; simp
  have := (c09_marker_only_at_end _ _ _ e).1 hm
  split at this <;> simp at this

/-- C88. Sending the chunk again is not safe: after a text that ends a line, a chunk that starts with a line holding only a
dot, whose first attempt the connection did not take, is written without its extra dot on the second attempt. The receiver
sees the end of the message there, and what follows in the text (an attacker may have written it) as commands. -/
theorem c88_retry_unsafe (s : BSink) (chunks : List Bytes) (evil : Bytes) (k : DSink) (plan : List SendRes) (hs : s.out = [])
    (h : (DSink.new s).sendAll chunks = some (true, k)) (hl : placeOf chunks.flatten = .lineStart)
    (hp : k.sink.plan = .errDropped :: plan) (hok : ∀ r ∈ plan, r = .ok) :
    ∃ k' k'', k.send (b!".\r\n" ++ evil) = some (false, k') ∧ k'.send (b!".\r\n" ++ evil) = some (true, k'') ∧
      k''.sink.out.flatten = stuff chunks.flatten ++ b!".\r\n" ++ stuff evil ∧
      ∃ ls, IsMessage k''.sink.out.flatten ls (stuff evil) ∧ decodedLines ls = chunks.flatten := by
  have hk := sendAll_ok (DSink.new s) chunks
  rw [h] at hk
  obtain ⟨new, h1, h2⟩ := hk
  change (new.flatten, k.state) = encode .crLfPassed chunks.flatten at h2
  have hks : k.state = .crLfPassed := by
    have := encode_place chunks.flatten
    rw [← h2, hl] at this; exact this
  have hfirst : k.send (b!".\r\n" ++ evil) = some (false, ⟨{ k.sink with plan := plan }, .running⟩) := by
    unfold DSink.send
    rw [show (b!".\r\n" ++ evil : Bytes).length + 2 = (evil.length + 4) + 1 by simp, DSink.sendLoop]
    have : sinkScan k.state 0 (b!".\r\n" ++ evil) = (.running, some 0) := by simp [sinkScan, hks]
    rw [this]
    simp only [BSink.send, hp]
    rfl
  have hok' := send_ok ⟨{ k.sink with plan := plan }, .running⟩ (b!".\r\n" ++ evil)
  have hsucc : ∃ k'', (⟨{ k.sink with plan := plan }, .running⟩ : DSink).send (b!".\r\n" ++ evil) = some (true, k'') := by
    rcases hr : (⟨{ k.sink with plan := plan }, .running⟩ : DSink).send (b!".\r\n" ++ evil) with _ | ⟨_ | _, k''⟩
    · rw [hr] at hok'; exact hok'.elim
    · exact absurd hr (sendLoop_allOk _ _ _ hok _)
    · exact ⟨k'', rfl⟩
  obtain ⟨k'', h3⟩ := hsucc
  refine ⟨_, k'', hfirst, h3, ?_⟩
  rw [h3] at hok'
  obtain ⟨new', h4, h5⟩ := hok'
  have e5 : new'.flatten = b!".\r\n" ++ stuff evil := by
    have e : encode .running (b!".\r\n" ++ evil) = (b!".\r\n" ++ (encode .crLfPassed evil).1, (encode .crLfPassed evil).2) := by
      simp [encode, KState.next]
    simp only at h5
    rw [e, (encode_stuff evil).1] at h5
    exact congrArg Prod.fst h5
  have hout : k''.sink.out.flatten = stuff chunks.flatten ++ b!".\r\n" ++ stuff evil := by
    rw [h4]
    simp only [List.flatten_append]
    rw [h1, e5]
    have : new.flatten = stuff chunks.flatten := by rw [← (encode_stuff _).1, ← h2]
    simp [DSink.new, hs, this]
  refine ⟨hout, ?_⟩
  have hw : wireForm chunks.flatten = stuff chunks.flatten ++ b!".\r\n" := by
    unfold wireForm; rw [if_pos (lineStart_iff.1 hl)]
  obtain ⟨ls, m1, m2⟩ := wire_message chunks.flatten (stuff evil)
  refine ⟨ls, by rw [hout, ← hw]; exact m1, ?_⟩
  rw [m2]
  unfold wholeLines; rw [if_pos (lineStart_iff.1 hl)]

/-- C88, a case of the above: the text after the lone dot arrives as a command of its own. -/
example : ((DSink.new ⟨[], [.ok, .errDropped]⟩).sendAll [b!"hi\r\n"]).map (fun r => (r.1, r.2.sink.plan)) =
    some (true, [.errDropped]) ∧ placeOf [b!"hi\r\n"].flatten = .lineStart ∧
    stuff b!"RCPT TO:<x@y>\r\n" = b!"RCPT TO:<x@y>\r\n" := by decide +kernel

/-- C88. Calling `end()` after a failed send is not safe either: the marker may not be recognised, so that the receiver goes
on reading what follows as text ... -/
theorem c88_end_unsafe : ∃ (s : BSink) (k k' : DSink) (s' : BSink), s.out = [] ∧
    (DSink.new s).sendAll [b!"a"] = some (true, k) ∧ k.send b!"b\r\n" = some (false, k') ∧ k'.finish = (true, s') ∧
    s'.out.flatten = b!"a.\r\n" ∧ ¬ HasMarker s'.out.flatten := by
  refine ⟨⟨[], [.ok, .errDropped]⟩, ⟨⟨[b!"a"], [.errDropped]⟩, .running⟩, ⟨⟨[b!"a"], []⟩, .crLfPassed⟩, ⟨[b!"a", b!".\r\n"], []⟩,
    rfl, by decide, by decide, by decide, by decide, ?_⟩
  rw [show ([b!"a", b!".\r\n"] : List Bytes).flatten = b!"a.\r\n" by decide]
  rintro (h | h)
  · revert h; decide
  · revert h; decide

/-- C88. ... or the message may end where the first of two dots was, although more text had been written. -/
theorem c88_end_early_unsafe : ∃ (s : BSink) (k' : DSink) (s' : BSink), s.out = [] ∧
    (DSink.new s).send b!"a\r\n.b\r\n" = some (false, k') ∧ k'.finish = (true, s') ∧
    IsMessage s'.out.flatten [b!"a"] b!".\r\n" := by
  refine ⟨⟨[], [.errAccepted]⟩, ⟨⟨[b!"a\r\n."], []⟩, .running⟩, ⟨[b!"a\r\n.", b!"\r\n.\r\n"], []⟩, rfl, by decide, by decide,
    by decide, ?_⟩
  intro l hl
  obtain rfl : l = b!"a" := by simpa using hl
  exact ⟨by intro h; revert h; decide, by decide⟩

/-- C88. The case that is safe: if the connection has taken the whole of the chunk (the error or the drop hit while it was
flushing the last piece), a caller who goes on gets the right wire form. -/
theorem c88_go_on (s : BSink) (chunks more : List Bytes) (c : Bytes) (k k' : DSink)
    (h : (DSink.new s).sendAll chunks = some (true, k)) (hf : k.send c = some (false, k'))
    (hw : k'.sink.out.flatten = s.out.flatten ++ stuff (chunks.flatten ++ c)) :
    ∃ k'' s'' new, ({ k' with sink := ⟨k'.sink.out, []⟩ } : DSink).sendAll more = some (true, k'') ∧
      k''.finish = (true, s'') ∧ s''.out = k'.sink.out ++ new ∧
      s''.out.flatten = s.out.flatten ++ wireForm (chunks.flatten ++ c ++ more.flatten) := by
  obtain ⟨w, h1, h2⟩ := c88_failed_send s chunks c k k' h hf
  have e : w = stuff (chunks.flatten ++ c) := by
    rw [h1] at hw; exact List.append_cancel_left hw
  have hc : Continues k' (chunks.flatten ++ c) := by
    rcases h2 with ⟨_, h2⟩ | ⟨g1, p, hp, g2⟩ | ⟨a, b, _, _, _, g2⟩
    · exact h2
    · have hc : c = [] := by
        rw [g1, ← (encode_stuff _).1, ← (encode_stuff (_ ++ _)).1, encode_append] at e
        have := congrArg List.length e
        have h3 := encode_length (encode .crLfPassed chunks.flatten).2 c
        simp at this
        rw [this] at h3
        exact List.length_eq_zero_iff.1 (by simpa using h3)
      subst hc
      have hp' : p = [] := by
        rcases hp with ⟨h, _⟩ | ⟨x, b, h3, h4, _⟩
        · exact h
        · rw [h3] at h4; simp at h4
      subst hp'
      simpa using g2
    · exact absurd e (g2 _)
  obtain ⟨k'', s'', new, f1, f2, f3, f4⟩ := hc more k'.sink.out
  exact ⟨k'', s'', new, f1, f2, f3, by rw [f3, List.flatten_append, hw, List.append_assoc, f4]⟩

/-! ### Concrete cases: all three ways to fail occur -/

example : (DSink.new ⟨[], [.ok, .ok]⟩).sendAll [b!"a\r\n"] = some (true, ⟨⟨[b!"a\r\n"], [.ok]⟩, .crLfPassed⟩) := by decide
/-- Whole. -/
example : (⟨⟨[b!"a\r\n"], [.ok, .errAccepted]⟩, .crLfPassed⟩ : DSink).send b!".b" =
    some (false, ⟨⟨[b!"a\r\n", b!".", b!".b"], []⟩, .running⟩) := by decide
/-- Nothing. -/
example : (⟨⟨[b!"a\r\n"], [.errDropped]⟩, .crLfPassed⟩ : DSink).send b!".b" = some (false, ⟨⟨[b!"a\r\n"], []⟩, .running⟩) := by
  decide
/-- Half. -/
example : (⟨⟨[b!"a\r\n"], [.ok, .errDropped]⟩, .crLfPassed⟩ : DSink).send b!".b" =
    some (false, ⟨⟨[b!"a\r\n", b!"."], []⟩, .running⟩) := by decide
/-- Nothing taken, and going on is right all the same: the chunk would not have changed the place. -/
example : FirstPiece b!"a" b!"bc" b!"bc" ∧ placeOf (b!"a" ++ b!"bc") = placeOf b!"a" := by
  refine ⟨.inl ⟨rfl, ?_⟩, by decide⟩
  intro y z h
  have h46 : ¬ (46 : UInt8) ∈ (b!"bc" : Bytes) := by decide
  exact absurd (by rw [h]; simp) h46

end Verif
