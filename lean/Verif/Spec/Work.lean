import Verif.Spec.Data
import Verif.Spec.Streams
import Verif.Model.Work
/-
How much work was done on a connection.
-/
namespace Verif.Spec

/-- The packets among these events. -/
def packets : List (SrcEv Bytes) → Nat
  | [] => 0
  | .pkt _ :: rest => packets rest + 1
  | .pending :: rest => packets rest

/-- `Metered s k w d`: a `DataStream` was made from the reader `s` and polled `k` times, and these polls together looked at `w`
places of the buffer; now it is `d`. -/
inductive Metered (s : Prep Bytes) : Nat → Nat → DStream → Prop
  | new : Metered s 0 0 (DStream.new s)
  | poll {k w d} : Metered s k w d → Metered s (k + 1) (w + d.pollNextC.1) d.pollNextC.2.2

end Verif.Spec
