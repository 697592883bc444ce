import Verif.Model.Reply
/-
`SmtpString::byte_chunks` once more, with the machine arithmetic of `usize`. It is the only place in the code where a number
chosen by the caller enters a sum or a product: all other sums are of positions inside one buffer, and a buffer is at most
half as long as `usize` can count (`isize::MAX` bytes).
-/
namespace Verif

/-- How the compiler was told to treat overflow: `checked` panics (debug builds), `wrapping` reduces (release builds). -/
inductive Overflow where
  | checked
  | wrapping
deriving DecidableEq, Repr

namespace Usize

/-- The result of an operation whose mathematical value is `v`; `top` is `usize::MAX + 1`. -/
def fit (o : Overflow) (top : Nat) (v : Int) : Option Nat :=
  if 0 ≤ v ∧ v < top then some v.toNat
  else match o with
    | .checked => none
    | .wrapping => some (v % top).toNat

def add (o : Overflow) (top x y : Nat) : Option Nat := fit o top (x + y)
def sub (o : Overflow) (top x y : Nat) : Option Nat := fit o top (x - y)
def mul (o : Overflow) (top x y : Nat) : Option Nat := fit o top (x * y)
/-- Division by zero panics in every build. -/
def div (x y : Nat) : Option Nat := if y = 0 then none else some (x / y)

/-- `Bytes::slice` of bytes 0.4: asserts `begin <= end` and `end <= len`. -/
def slice (s : Bytes) (a b : Nat) : Option Bytes :=
  if a ≤ b ∧ b ≤ s.length then some ((s.take b).drop a) else none

/-- The closure of `byte_chunks` (smtpstring.rs:66). -/
def chunk (o : Overflow) (top : Nat) (s : Bytes) (n i : Nat) : Option Bytes := do
  let a ← mul o top i n
  let i1 ← add o top i 1
  let b ← mul o top i1 n
  slice s a (min s.length b)

/-- `SmtpString::byte_chunks` (smtpstring.rs:63-67), all of its chunks; `none` is a panic. -/
def byteChunks (o : Overflow) (top : Nat) (s : Bytes) (n : Nat) : Option (List Bytes) := do
  let t ← add o top s.length n
  let t ← sub o top t 1
  let k ← div t n
  (List.range k).mapM (chunk o top s n)

end Usize
end Verif
