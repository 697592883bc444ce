import Verif.Proofs.Lines
/-
C13 - C16: pushing back, reading lines.
-/
namespace Verif
open Spec

/-- C13. A successful `prepend` is undone by the next poll, which returns the item, at once. -/
theorem c13_prepend_then_poll {α : Type} (p q : Prep α) (x : α) (h : p.prepend x = some q) :
    q.pollNext = (.ready (some x), p) := by
  obtain ⟨src, pre⟩ := p
  cases pre <;> simp [Prep.prepend] at h
  subst h; rfl

/-- C13. So a reader gets the item, then what it would have got without it. -/
theorem c13_prepend_then_read {α : Type} (p q : Prep α) (x : α) (h : p.prepend x = some q) :
    q.items = x :: p.items := by
  have := c13_prepend_then_poll p q x h
  rw [Prep.items.eq_def]
  split <;> rename_i h3 <;> rw [this] at h3 <;> simp at h3
  rw [h3.1, h3.2]

/-- C13. Right after a successful `prepend` another one fails (and leaves the object as it was: the model's `none` carries no
new object). -/
theorem c13_second_prepend_fails {α : Type} (p q : Prep α) (x y : α) (h : p.prepend x = some q) :
    q.prepend y = none := by
  obtain ⟨src, pre⟩ := p
  cases pre <;> simp [Prep.prepend] at h
  subst h; rfl

/-- C13. A fresh object passes the stream through, and accepts a push-back. -/
theorem c13_fresh {α : Type} (src : List (SrcEv α)) (x : α) :
    (∃ q, (Prep.new src).prepend x = some q) ∧
    (Prep.new src).items = src.filterMap (fun | .pkt a => some a | .pending => none) := by
  refine ⟨⟨_, rfl⟩, ?_⟩
  induction src with
  | nil => rw [Prep.items.eq_def]; rfl
  | cons e r ih =>
    rw [Prep.items.eq_def]
    cases e with
    | pkt a => simpa [Prep.new, Prep.pollNext] using ih
    | pending => simpa [Prep.new, Prep.pollNext] using ih

/-- C13. After the item was read the slot is free again. -/
theorem c13_slot_free_after_poll {α : Type} (p q : Prep α) (x y : α)
    (h : p.pollNext = (.ready (some x), q)) : ∃ r, q.prepend y = some r := by
  have := (Prep.pollNext_some h).2
  exact ⟨_, by simp [Prep.prepend, this]; rfl⟩

/-- C13. `prepend` fails exactly when a pushed-back item is waiting, i.e. there has been a push-back since the last item read. -/
theorem c13_prepend_iff {α : Type} (p : Prep α) (x : α) : (∃ q, p.prepend x = some q) ↔ ¬ ∃ (r : Prep α) (y : α), r.prepend y = some p := by
  obtain ⟨src, pre⟩ := p
  cases pre with
  | none =>
    refine ⟨fun _ => ?_, fun _ => ⟨_, rfl⟩⟩
    rintro ⟨⟨src', pre'⟩, y, h⟩
    cases pre' <;> simp [Prep.prepend] at h
  | some a =>
    refine ⟨fun ⟨q, h⟩ => by simp [Prep.prepend] at h, fun h => absurd ⟨⟨src, none, _⟩, a, rfl⟩ h⟩

/-- C13. A poll takes the first item off the stream, or tells that there is none, or changes nothing for the reader. -/
theorem c13_poll {α : Type} (p q : Prep α) (r : Poll (Option α)) (h : p.pollNext = (r, q)) :
    match r with
    | .ready (some x) => p.items = x :: q.items
    | .ready none => p.items = [] ∧ q.items = [] ∧ q = { p with ends := p.ends + 1 }
    | .pending => q.items = p.items := by
  rw [Prep.items.eq_def p]
  match r with
  | .ready (some x) => simp only; split <;> rename_i h1 <;> rw [h] at h1 <;> simp at h1; rw [h1.1, h1.2]
  | .ready none =>
    simp only
    obtain ⟨e1, e2, e3⟩ := Prep.pollNext_none h
    refine ⟨?_, ?_, e1⟩
    · split <;> rename_i h1 <;> rw [h] at h1 <;> simp at h1
    · have hsrc : p.src = [] := by simpa [Prep.evs, e3] using e2
      have h2 : q.pollNext = (.ready none, { q with ends := q.ends + 1 }) := by simp [e1, Prep.pollNext, hsrc, e3]
      rw [Prep.items.eq_def q]
      split <;> rename_i h1 <;> rw [h2] at h1 <;> simp at h1
  | .pending => simp only; split <;> rename_i h1 <;> rw [h] at h1 <;> simp at h1; rw [h1]

/-- What a user does with a `Prependable`. -/
inductive PrepUse (α : Type) where
  | push (x : α)
  | poll

/-- A history: the items accepted by `prepend`, the items read, and where it leads. -/
inductive PrepHistory {α : Type} : Prep α → List (PrepUse α) → List α → List α → Prep α → Prop
  | done {p} : PrepHistory p [] [] [] p
  | pushed {p q r x us a b} : p.prepend x = some q → PrepHistory q us a b r → PrepHistory p (.push x :: us) (x :: a) b r
  | refused {p r x us a b} : p.prepend x = none → PrepHistory p us a b r → PrepHistory p (.push x :: us) a b r
  | read {p q r x us a b} : p.pollNext = (.ready (some x), q) → PrepHistory q us a b r → PrepHistory p (.poll :: us) a (x :: b) r
  | waited {p q r us a b} : p.pollNext = (.pending, q) → PrepHistory q us a b r → PrepHistory p (.poll :: us) a b r
  | ended {p q r us a b} : p.pollNext = (.ready none, q) → PrepHistory q us a b r → PrepHistory p (.poll :: us) a b r

/-- C13. Over any history nothing is lost and nothing duplicated: what was read and what is left is what was pushed back and
what the stream had. -/
theorem c13_history {α : Type} {p r : Prep α} {us : List (PrepUse α)} {pushed got : List α}
    (h : PrepHistory p us pushed got r) : (got ++ r.items).Perm (pushed ++ p.items) := by
  induction h with
  | done => exact .refl _
  | @pushed p q r x us a b h1 _ ih =>
    rw [c13_prepend_then_read p q x h1] at ih
    exact ih.trans List.perm_middle
  | refused h1 _ ih => exact ih
  | @read p q r x us a b h1 _ ih =>
    have := c13_poll p q _ h1
    simp only at this
    rw [this]
    exact (ih.cons x).trans List.perm_middle.symm
  | @waited p q r us a b h1 _ ih =>
    have := c13_poll p q _ h1
    simp only at this
    rw [← this]
    exact ih
  | @ended p q r us a b h1 _ ih =>
    have := c13_poll p q _ h1
    simp only at this
    rw [this.1]
    rw [this.2.1] at ih
    exact ih

/-- C13. Every sequence of uses has a history (nothing panics or blocks). -/
theorem c13_history_exists {α : Type} (p : Prep α) (us : List (PrepUse α)) : ∃ a b r, PrepHistory p us a b r := by
  induction us generalizing p with
  | nil => exact ⟨[], [], p, .done⟩
  | cons u us ih =>
    cases u with
    | push x =>
      cases h : p.prepend x with
      | some q => obtain ⟨a, b, r, h1⟩ := ih q; exact ⟨_, _, _, .pushed h h1⟩
      | none => obtain ⟨a, b, r, h1⟩ := ih p; exact ⟨_, _, _, .refused h h1⟩
    | poll =>
      obtain ⟨a, b, r, h1⟩ := ih p.pollNext.2
      match h : p.pollNext with
      | (.ready (some x), q) => rw [h] at h1; exact ⟨_, _, _, .read h h1⟩
      | (.ready none, q) => rw [h] at h1; exact ⟨_, _, _, .ended h h1⟩
      | (.pending, q) => rw [h] at h1; exact ⟨_, _, _, .waited h h1⟩

/-- C14. If the bytes to come are `l`, a CRLF and `t`, with no CRLF in `l`, the line is `l` with its CRLF,
and exactly `t` stays readable, for every packetisation and push-back. -/
theorem c14_next_line (s : Prep Bytes) (l t : Bytes) (hl : NoCrlf l) (h : s.bytes = l ++ crlf ++ t) :
    ∃ s', nextCrlfLine s = .ok (some (l ++ crlf), s') ∧ s'.items.flatten = t := by
  obtain ⟨s', h1, h2, _⟩ := (nextCrlfLine_spec s).line l t hl (by simpa using h)
  exact ⟨s', h1, by rw [Prep.items_flatten, h2]⟩

/-- C14. The reader does not wait for more than the packet that completes the line: no later event of the
connection is taken. -/
theorem c14_no_overread (s : Prep Bytes) (before after : List (SrcEv Bytes)) (p : Bytes)
    (hs : s.evs = before ++ .pkt p :: after) (h1 : NoCrlf (evBytes before))
    (h2 : ¬ NoCrlf (evBytes before ++ p)) :
    ∃ l s', nextCrlfLine s = .ok (some l, s') ∧ s'.src = after := by
  rcases crlf_split s.bytes with h | ⟨l, t, hl, he⟩
  · exfalso
    apply h2
    intro hi
    apply h
    rw [Prep.bytes, hs]
    simp only [evBytes_append, evBytes_pkt]
    rw [← List.append_assoc]
    exact hi.trans (List.prefix_append _ _).isInfix
  · obtain ⟨s', h3, _, h5⟩ := (nextCrlfLine_spec s).line l t hl (by simpa using he)
    exact ⟨_, s', h3, h5 before p after hs (by simpa using h1) (by simpa using h2)⟩

/-- C15. No CRLF: the answer is `None`, and all bytes stay readable. -/
theorem c15_no_line (s : Prep Bytes) (h : NoCrlf s.bytes) :
    ∃ s', nextCrlfLine s = .ok (none, s') ∧ s'.items.flatten = s.bytes := by
  obtain ⟨s', h1, h2, _⟩ := (nextCrlfLine_spec s).noline (by simpa using h)
  exact ⟨s', h1, by rw [Prep.items_flatten, h2]; simp⟩

/-- C16. Reading lines until `None` never panics, gives lines each with its only CRLF at the end, leaves
bytes without CRLF, and together they are the input. -/
theorem c16_read_lines (s : Prep Bytes) :
    ∃ (ls : List Bytes) (s' : Prep Bytes), readLines s = .ok (ls.map (· ++ crlf), s') ∧ (∀ l ∈ ls, NoCrlf l) ∧
      NoCrlf s'.items.flatten ∧ (ls.map (· ++ crlf)).flatten ++ s'.items.flatten = s.bytes := by
  fun_induction readLines s with
  | case1 s p h =>
    exfalso
    rcases nextCrlfLine_cases s with ⟨_, x, hx, _⟩ | ⟨_, _, x, _, _, hx, _⟩ <;> rw [h] at hx <;> simp at hx
  | case2 s s' h =>
    rcases nextCrlfLine_cases s with ⟨hn, x, hx, hb⟩ | ⟨_, _, x, _, _, hx, _⟩ <;> rw [h] at hx <;> simp at hx
    subst hx
    exact ⟨[], s', rfl, by simp, by rw [Prep.items_flatten, hb]; exact hn, by simp [Prep.items_flatten, hb]⟩
  | case3 s l s' h p hr ih => obtain ⟨ls, s'', h1, _⟩ := ih; rw [hr] at h1; simp at h1
  | case4 s l s' h ls s'' hr ih =>
    rcases nextCrlfLine_cases s with ⟨_, x, hx, _⟩ | ⟨l', t, x, hn, he, hx, ht⟩ <;> rw [h] at hx <;> simp at hx
    obtain ⟨rfl, rfl⟩ := hx
    obtain ⟨ls', s3, h1, h2, h3, h4⟩ := ih
    rw [hr] at h1
    simp at h1
    obtain ⟨rfl, rfl⟩ := h1
    refine ⟨l' :: ls', s'', by simp, ?_, h3, ?_⟩
    · intro y hy
      rcases List.mem_cons.1 hy with rfl | hy
      · exact hn
      · exact h2 y hy
    · rw [he, ← ht, ← h4]; simp

/-! ### Concrete cases -/

private def exLines : Prep Bytes :=
  { src := [.pending, .pkt b!"\r", .pkt b!"\nQU", .pkt b!"IT\r\n\r"], pre := some b!"NOOP" }
example : exLines.bytes = b!"NOOP" ++ crlf ++ b!"QUIT\r\n\r" ∧ NoCrlf b!"NOOP" :=
  ⟨by decide, fun h => by have := h.subset (by simp : cCR ∈ crlf); revert this; decide⟩
example : exLines.evs = [.pkt b!"NOOP", .pending, .pkt b!"\r"] ++ .pkt b!"\nQU" :: [.pkt b!"IT\r\n\r"] := rfl
example : NoCrlf (Prep.new [SrcEv.pkt b!"QUI", .pkt b!"T\r"]).bytes :=
  fun h => by have := h.subset (by simp : cLF ∈ crlf); revert this; decide

end Verif
