import Verif.Model.Nom
/-
Model of smtp-message/src/byteslice.rs, and of the primitive parsers of nom 3.2 as they use it.
-/
namespace Verif

/-- `ByteSlice` (byteslice.rs:10-16). `ptr` is the address of the `Bytes` object, which only `PartialEq`
looks at; `usize` is a natural number (sums stay below twice the length of a buffer). -/
structure ByteSlice where
  ptr : Nat
  buf : Bytes
  start : Nat
  stop : Nat
deriving DecidableEq, Repr

namespace ByteSlice

/-- `From<&Bytes>` (byteslice.rs:18-26) -/
def ofBytes (ptr : Nat) (b : Bytes) : ByteSlice := ⟨ptr, b, 0, b.length⟩

/-- `len` and `InputLength::input_len` (byteslice.rs:29-31, 119-123); `none` is the panic of the
subtraction in a debug build. -/
def len (s : ByteSlice) : Option Nat := if s.start ≤ s.stop then some (s.stop - s.start) else none

/-- `&self.buf[self.start..self.end]`: `demote`, `promote`, `Deref` (byteslice.rs:33-51), and the slice
used by `InputIter`, `Compare`, `FindSubstring`; `none` is the panic of the index. -/
def demote (s : ByteSlice) : Option Bytes :=
  if s.start ≤ s.stop ∧ s.stop ≤ s.buf.length then some ((s.buf.take s.stop).drop s.start) else none

/-- `PartialEq::eq` (byteslice.rs:53-58) -/
def beq (s t : ByteSlice) : Bool := s.start == t.start && s.stop == t.stop && s.ptr == t.ptr

/-- `Slice<Range<usize>>` (byteslice.rs:60-69); `none` is the failed assertion. -/
def sliceRange (s : ByteSlice) (a b : Nat) : Option ByteSlice :=
  if a ≤ b ∧ b ≤ s.stop then some { s with start := s.start + a, stop := s.start + b } else none

/-- `Slice<RangeTo<usize>>` (byteslice.rs:71-75) -/
def sliceTo (s : ByteSlice) (b : Nat) : Option ByteSlice := s.sliceRange 0 b

/-- `Slice<RangeFrom<usize>>` (byteslice.rs:77-81) -/
def sliceFrom (s : ByteSlice) (a : Nat) : Option ByteSlice := s.len.bind fun n => s.sliceRange a n

/-- `Slice<RangeFull>` (byteslice.rs:83-87) -/
def sliceFull (s : ByteSlice) : ByteSlice := s

/-- `iter_elements` (byteslice.rs:99-103), its elements. -/
def iterElements (s : ByteSlice) : Option Bytes := s.demote

/-- `iter_indices` (byteslice.rs:95-97) -/
def iterIndices (s : ByteSlice) : Option (List (Nat × UInt8)) :=
  s.demote.map fun b => b.zipIdx.map fun e => (e.2, e.1)

/-- `position` (byteslice.rs:105-112) -/
def position (s : ByteSlice) (p : UInt8 → Bool) : Option (Option Nat) := s.demote.map fun b => b.findIdx? p

/-- `slice_index` (byteslice.rs:114-120) -/
def sliceIndex (s : ByteSlice) (n : Nat) : Option (Option Nat) :=
  s.len.map fun l => if l ≥ n then some n else none

/-- `Compare::compare` / `compare_no_case` (byteslice.rs:129-141) -/
def compare (s : ByteSlice) (eq : UInt8 → UInt8 → Bool) (t : Bytes) : Option Nom.Cmp :=
  s.demote.map fun b => Nom.compareBy eq b t

/-- `FindSubstring::find_substring` (byteslice.rs:143-150) -/
def findSubstring (s : ByteSlice) (t : Bytes) : Option (Option Nat) := s.demote.map (Nom.findSubstring t)

/-! The primitive parsers of nom 3.2, as its macros call the methods above. `none` is a panic. -/

/-- `IResult<ByteSlice, O>` -/
inductive BRes (α : Type) where
  | done (rest : ByteSlice) (a : α)
  | error
  | incomplete

/-- `Done(i.slice(n..), i.slice(..n))` -/
def splitAt (s : ByteSlice) (n : Nat) : Option (BRes ByteSlice) :=
  (s.sliceFrom n).bind fun r => (s.sliceTo n).map fun a => .done r a

/-- `tag!`, `tag_no_case!` -/
def tagBy (eq : UInt8 → UInt8 → Bool) (t : Bytes) (s : ByteSlice) : Option (BRes ByteSlice) :=
  (s.compare eq t).bind fun
    | .ok _ => s.splitAt t.length
    | .error => some .error
    | .incomplete => some .incomplete

/-- `one_of!` -/
def oneOf (set : Bytes) (s : ByteSlice) : Option (BRes UInt8) :=
  s.iterElements.bind fun
    | [] => some .incomplete
    | c :: _ => if set.contains c then (s.sliceFrom 1).map fun r => .done r c else some .error

/-- `is_a!` -/
def isA (set : Bytes) (s : ByteSlice) : Option (BRes ByteSlice) :=
  (s.position fun c => !set.contains c).bind fun
    | some 0 => some .error
    | some n => s.splitAt n
    | none => s.len.bind fun l => (s.sliceFrom l).map fun r => .done r s

/-- `eat_separator!` -/
def eatSeparator (set : Bytes) (s : ByteSlice) : Option (BRes ByteSlice) :=
  (s.position fun c => !set.contains c).bind fun
    | some 0 => (s.sliceTo 0).map fun a => .done s a
    | some n => s.splitAt n
    | none => s.len.bind fun l => (s.sliceFrom l).map fun r => .done r s

/-- `take!` -/
def take (n : Nat) (s : ByteSlice) : Option (BRes ByteSlice) :=
  (s.sliceIndex n).bind fun
    | some k => s.splitAt k
    | none => some .incomplete

/-- `take_until!` -/
def takeUntil (t : Bytes) (s : ByteSlice) : Option (BRes ByteSlice) :=
  s.len.bind fun l =>
    if t.length > l then some .incomplete
    else (s.findSubstring t).bind fun
      | none => some .error
      | some n => s.splitAt n

/-- `take_until_and_consume!` -/
def takeUntilAndConsume (t : Bytes) (s : ByteSlice) : Option (BRes ByteSlice) :=
  s.len.bind fun l =>
    if t.length > l then some .incomplete
    else (s.findSubstring t).bind fun
      | none => some .error
      | some n => (s.sliceFrom (n + t.length)).bind fun r => (s.sliceTo n).map fun a => .done r a

/-- `recognize!`: `i.slice(..i.offset(&rest))`; the offset is the difference of the addresses of the first
bytes. -/
def recognize {α : Type} (p : ByteSlice → Option (BRes α)) (s : ByteSlice) : Option (BRes ByteSlice) :=
  (p s).bind fun
    | .done r _ => (s.sliceTo (r.start - s.start)).map fun a => .done r a
    | .error => some .error
    | .incomplete => some .incomplete

end ByteSlice
end Verif
