import Verif.Basic
/-
Model of the asynchronous plumbing used by the parsers:

* smtp-message/src/streamext/prependable.rs  (`Prependable`)
* smtp-server/src/crlflines.rs               (`next_crlf_line`)

A source stream is the list of what successive polls of it return: a packet, or "not ready"
(`Poll::Pending`). When the list is used up the stream has ended and every further poll reports the
end again. Simplification: the source is *fused* (`stream::iter`, sockets wrapped in a fused stream) and ends
(Model/AnySource.lean has no such restriction, and C121 relates the two);
wakers are not modelled: a task that got `Pending` is simply polled again later.
-/
namespace Verif

/-- Reasons for which the code panics. -/
inductive Panic where
  /-- `Prependable::prepend(..).unwrap()` on an occupied slot (data/stream.rs:76, crlflines.rs:24,31) -/
  | prependUnwrap
  /-- `assert_eq!(self.state, Finished)` in `DataStream::complete` (data/stream.rs:68) -/
  | notFinished
  /-- `assert!(data_stream.was_completed())` (interact.rs:135) -/
  | notCompleted
  /-- `ReplyLine::build(..).unwrap()` (sendreply.rs:24-25) -/
  | buildUnwrap
  /-- `c.send_to(&mut w).unwrap()` on a full buffer (interact.rs:37) -/
  | writeUnwrap
  /-- slice / index out of bounds, `unwrap` on `None`, failed `assert!` elsewhere -/
  | bounds
  /-- division by zero -/
  | divZero
  deriving DecidableEq, Repr

/-- `std::task::Poll` -/
inductive Poll (α : Type) where
  | ready (a : α)
  | pending
  deriving DecidableEq, Repr

/-- What one poll of the underlying stream will find: an item, or nothing yet. -/
inductive SrcEv (α : Type) where
  | pkt (a : α)
  | pending
  deriving DecidableEq, Repr

/-- `Prependable<S>` (prependable.rs:5-8): the stream, and the optional pushed-back item. `ends` (ghost) counts the polls that
the stream has answered with its end. -/
structure Prep (α : Type) where
  src : List (SrcEv α)
  pre : Option α
  ends : Nat := 0
  deriving DecidableEq, Repr

namespace Prep
variable {α : Type}

/-- `Prependable::new` (prependable.rs:11-16) -/
def new (s : List (SrcEv α)) : Prep α := { src := s, pre := none }

/-- `Prependable::prepend` (prependable.rs:19-26); `none` is `Err(())`, in which case the object is
unchanged. -/
def prepend (p : Prep α) (item : α) : Option (Prep α) :=
  if p.pre.isSome then none else some { p with pre := some item }

/-- `<Prependable as Stream>::poll_next` (prependable.rs:32-48). -/
def pollNext (p : Prep α) : Poll (Option α) × Prep α :=
  match p.pre with
  | some item => (.ready (some item), { p with pre := none })
  | none =>
    match p.src with
    | [] => (.ready none, { p with ends := p.ends + 1 })
    | .pending :: r => (.pending, { p with src := r })
    | .pkt a :: r => (.ready (some a), { p with src := r })

/-- Number of polls that can still change the object (used for termination only). -/
def size (p : Prep α) : Nat := p.src.length + (if p.pre.isSome then 1 else 0)

theorem size_pending {p p' : Prep α} (h : p.pollNext = (.pending, p')) : p'.size < p.size := by
  unfold pollNext at h
  cases hp : p.pre <;> cases hs : p.src <;> simp [hp, hs] at h
  rename_i e r
  cases e <;> simp at h
  subst h; simp [size, hp, hs]

theorem size_ready {p p' : Prep α} {a : α} (h : p.pollNext = (.ready (some a), p')) :
    p'.size < p.size := by
  unfold pollNext at h
  cases hp : p.pre <;> cases hs : p.src <;> simp [hp, hs] at h
  · rename_i e r
    cases e <;> simp at h
    obtain ⟨_, rfl⟩ := h; simp [size, hp, hs]
  · obtain ⟨_, rfl⟩ := h; simp [size, hp, hs]
  · obtain ⟨_, rfl⟩ := h; simp [size, hp, hs]

end Prep

/-- Polls until the result is not `Pending`: `s.next().await`. -/
def Prep.next {α : Type} (p : Prep α) : Option α × Prep α :=
  match _h : p.pollNext with
  | (.ready r, p') => (r, p')
  | (.pending, p') => p'.next
termination_by p.size
decreasing_by exact Prep.size_pending _h

/-- All items a consumer gets by reading a stream to its end (`while let Some(x) = s.next().await`, as
at data/stream.rs:263 `stream.map(..).concat()` in the tests or a caller of `interact`). -/
def Prep.items {α : Type} (p : Prep α) : List α :=
  match _h : p.pollNext with
  | (.ready none, _) => []
  | (.ready (some a), p') => a :: p'.items
  | (.pending, p') => p'.items
termination_by p.size
decreasing_by
  · exact Prep.size_ready _h
  · exact Prep.size_pending _h

/-- Position of the first `"\r\n"`: `buf.windows(2).position(|x| x == b"\r\n")` (crlflines.rs:22). -/
def findCrlf : Bytes → Option Nat
  | a :: b :: r =>
    if a = cCR ∧ b = cLF then some 0 else (findCrlf (b :: r)).map (· + 1)
  | _ => none

/-- The loop of `next_crlf_line` (crlflines.rs:10-34) entered with the bytes gathered so far in `buf`.
It returns the line, or `none` at end of stream, and the reader afterwards. `.await` on a pending
source re-polls it later, keeping `buf`. -/
def nextCrlfLineLoop (s : Prep Bytes) (buf : Bytes) : Except Panic (Option Bytes × Prep Bytes) :=
  match _h : s.pollNext with
  | (.pending, s') => nextCrlfLineLoop s' buf
  | (.ready (some pkt), s') =>
    match findCrlf (buf ++ pkt) with
    | some pos =>
      match s'.prepend ((buf ++ pkt).drop (pos + 2)) with
      | some s'' => .ok (some ((buf ++ pkt).take (pos + 2)), s'')
      | none => .error .prependUnwrap
    | none => nextCrlfLineLoop s' (buf ++ pkt)
  | (.ready none, s') =>
    match s'.prepend buf with
    | some s'' => .ok (none, s'')
    | none => .error .prependUnwrap
termination_by s.size
decreasing_by
  · exact Prep.size_pending _h
  · exact Prep.size_ready _h

/-- `next_crlf_line` (crlflines.rs:6-35). -/
def nextCrlfLine (s : Prep Bytes) : Except Panic (Option Bytes × Prep Bytes) :=
  nextCrlfLineLoop s []

end Verif
