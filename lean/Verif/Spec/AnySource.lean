import Verif.Model.AnySource
/-
Connections that answer their polls in any way, and those that are lists of answers (C121).
-/
namespace Verif.Spec
open AnySource
variable {L : IpLib} {S U : Type}

/-- What the polls number `k`, ..., `k + n - 1` of a connection answer, as a list; reports of its end are left out. -/
def heard (f : Source) (k n : Nat) : List (SrcEv Bytes) :=
  (List.range' k n).filterMap fun i =>
    match f i with
    | .pending => some .pending
    | .ready (some b) => some (.pkt b)
    | .ready none => none

/-- The connection does not report its end before poll number `n`. -/
def OpenFor (f : Source) (n : Nat) : Prop := ∀ i, i < n → f i ≠ .ready none

/-- The connection reports its end at poll number `n`, and not before. -/
def EndsAt (f : Source) (n : Nat) : Prop := OpenFor f n ∧ f n = .ready none

/-- The connection that is the list `evs`, and reports its end for ever after. -/
def ofList (evs : List (SrcEv Bytes)) : Source := fun i =>
  match evs[i]? with
  | some .pending => .pending
  | some (.pkt b) => .ready (some b)
  | none => .ready none

/-- How often the connection has been polled. -/
def pollsOf (x : AnySource.State L S U) : Nat := x.input.polls

/-- The same place in the code; a message stream in the same state; while the stream is being polled, the answer is still to come. -/
def SameCode : AnySource.PC L S U → Task.PC L S U → Prop
  | .plain p, q => p = q ∧ ∀ act h d, q ≠ .handle act h d
  | .handle act h d, .handle act' h' d' =>
    act = act' ∧ h = h' ∧ d.state = d'.state ∧ d.buf = d'.buf ∧ d.reader.pre = d'.source.pre
  | .polling act h _, .handle act' h' _ => act = act' ∧ h = h' ∧ act h = .poll
  | _, _ => False

/-- The same point of a session: the same place, and all that has happened, was written, and is stored is the same. -/
def SamePoint (x : AnySource.State L S U) (y : Task.State L S U) : Prop :=
  SameCode x.pc y.1 ∧ x.world.trace = y.2.trace ∧ x.world.writer = y.2.writer ∧ x.world.cfg = y.2.cfg ∧ x.world.conn = y.2.conn ∧
    x.world.mail = y.2.mail

end Verif.Spec
