import Verif.Spec.Await
import Verif.Model.Task
/-
What is found of the configuration when a session is dropped, or a callback panics, in the middle of a callback.
-/
namespace Verif.Spec
variable {L : IpLib} {S U : Type}

/-- The session in the state `x` is dropped, or the callback it is waiting for panics, and `s'` is what the configuration is then:
callbacks may have done part of their work, or all of it, without having returned. What the mailbox can be:
as it was when the callback was called; or, if the callback is `handle_mail`, called with the envelope `m`, and it has read the
message to its end, has called `complete()`, and is going to accept the mail, with this mail added, although it has not returned. -/
inductive LeftBehind (V : Verdict L S U) (box : S → List (Stored L)) (x : Task.State L S U) (s' : S) : Prop
  | untouched : box s' = box x.2.cfg → LeftBehind V box x s'
  | stored {act h ok d evs m s'' u''} : x.1 = .handle act (h ++ [.polled (.ready none)] ++ [.completed ok]) d → Reading h →
      x.2.trace = evs ++ [.handleMail m] → V x.2.cfg x.2.conn m (textOf h) ok = (.accept, s'', u'') →
      box s' = box x.2.cfg ++ [(m, textOf h, ok)] → LeftBehind V box x s'

end Verif.Spec
