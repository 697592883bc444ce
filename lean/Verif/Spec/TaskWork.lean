import Verif.Spec.Work
import Verif.Model.Server
/-
What the packets of a connection look like (C116).
-/
namespace Verif.Spec

/-- These bytes are whole lines: nothing, or something that ends with CRLF. -/
def WholeLines (b : Bytes) : Prop := b = [] ∨ crlf <:+ b

/-- The client's packets end where lines end. -/
def InLines (incoming : List (SrcEv Bytes)) : Prop := ∀ b, .pkt b ∈ incoming → WholeLines b

/-- The lines that were read. -/
def linesRead {L : IpLib} : List (Ev L) → List Bytes
  | [] => []
  | .line l :: evs => l :: linesRead evs
  | _ :: evs => linesRead evs

end Verif.Spec
