import Verif.Spec.Streams
/-
How much one poll takes (C118).
-/
namespace Verif.Spec

/-- The packets with something in them. -/
def fullPackets : List (SrcEv Bytes) → Nat
  | [] => 0
  | .pkt b :: rest => (if b = [] then 0 else 1) + fullPackets rest
  | .pending :: rest => fullPackets rest

/-- How often the stream was not ready. -/
def notReady : List (SrcEv Bytes) → Nat
  | [] => 0
  | .pkt _ :: rest => notReady rest
  | .pending :: rest => 1 + notReady rest

end Verif.Spec
