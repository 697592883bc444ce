import Verif.Spec.Hooks
import Verif.Model.Checked
/-
C115: what must be assumed of the texts of a configuration. They are `Bytes`, so none is longer than `isize::MAX` bytes. And when a line
is too long.
-/
namespace Verif.Spec
variable {L : IpLib} {S U : Type}

/-- No text the configuration may answer with is longer than `cap` bytes. -/
structure TextsExist (cap : Nat) (C : Config L S U) : Prop where
  says : ∀ h s, (says C h s).2.length ≤ cap
  filterFrom : ∀ s u f r f' s' u', C.filterFrom s u f = (.reject r, f', s', u') → r.msg.length ≤ cap
  filterTo : ∀ s u t m r t' m' s' u', C.filterTo s u t m = (.reject r, t', m', s', u') → r.msg.length ≤ cap
  filterData : ∀ s u m r m' s' u', C.filterData s u m = (.reject r, m', s', u') → r.msg.length ≤ cap
  handleMail : ∀ s u m h r s' u', C.handleMail s u m h = .done (.reject r) s' u' → r.msg.length ≤ cap

/-- The session waits for the rest of a line, and the packet that comes next makes what has arrived of it longer than any buffer. -/
def Full (M : Checked.Machine) (x : Task.State L S U) : Prop :=
  ∃ buf w pkt s, x = (.read buf, w) ∧ w.reader.pollNext = (.ready (some pkt), s) ∧ M.cap < buf.length + pkt.length

end Verif.Spec
