import Verif.Spec.Streams
import Verif.Spec.Data
import Verif.Model.Data
/-
What is kept in memory for a connection.
-/
namespace Verif.Spec

/-- Every item this reader still has to offer, the pushed-back one included, is at most `n` bytes long. -/
def ItemsAtMost (n : Nat) (p : Prep Bytes) : Prop := ∀ b, .pkt b ∈ p.evs → b.length ≤ n

/-- `Operated s out d`: a `DataStream` was made from the reader `s`, and its user polled it and called `complete()` in any
order and any number of times (as long as that did not panic), which gave the chunks `out`; now it is `d`. -/
inductive Operated (s : Prep Bytes) : List Bytes → DStream → Prop
  | new : Operated s [] (DStream.new s)
  | chunk {out d o d'} : Operated s out d → d.pollNext = (.ready (some o), d') → Operated s (out ++ [o]) d'
  | ended {out d d'} : Operated s out d → d.pollNext = (.ready none, d') → Operated s out d'
  | pending {out d d'} : Operated s out d → d.pollNext = (.pending, d') → Operated s out d'
  | completed {out d ok d'} : Operated s out d → d.complete = .ok (ok, d') → Operated s out d'

/-- `Awaiting s buf p`: `next_crlf_line` was called on the reader `s` and awaits the next item; it holds the bytes `buf`, and the
reader is now `p`. -/
inductive Awaiting (s : Prep Bytes) : Bytes → Prep Bytes → Prop
  | call : Awaiting s [] s
  | pending {buf p p'} : Awaiting s buf p → p.pollNext = (.pending, p') → Awaiting s buf p'
  | packet {buf p pkt p'} : Awaiting s buf p → p.pollNext = (.ready (some pkt), p') → NoCrlf (buf ++ pkt) →
      Awaiting s (buf ++ pkt) p'

end Verif.Spec
