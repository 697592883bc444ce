import Verif.Model.Task
import Verif.Model.Work
import Verif.Model.ParseWork
/-
What the steps of a session cost: the places of the received bytes that the code between two `.await`s looks at, with the counters of
Model/Work.lean and Model/ParseWork.lean. What the callbacks do, and the writing of replies, is not counted.
-/
namespace Verif.Task
variable {L : IpLib} {S U : Type}

/-- The search for the end of a line (crlflines.rs:22), one at every packet. -/
def searchWork : State L S U → Nat
  | (.read buf, w) =>
    match w.reader.pollNext with
    | (.ready (some pkt), _) => findCrlfWork (buf ++ pkt)
    | _ => 0
  | _ => 0

/-- `Command::parse` (interact.rs:82), once for every line. -/
def parseWork : State L S U → Nat
  | (.read buf, w) =>
    match w.reader.pollNext with
    | (.ready (some pkt), _) =>
      match findCrlf (buf ++ pkt) with
      | some pos => (ParseWork.commandParse ((buf ++ pkt).take (pos + 2)) : Nat × Except ParseErr (Command L)).1
      | none => 0
    | _ => 0
  | _ => 0

/-- The polls of message streams (data/stream.rs:94-222). -/
def decodeWork : State L S U → Nat
  | (.handle act h d, _) =>
    match act h with
    | .poll => d.pollNextC.1
    | _ => 0
  | _ => 0

/-- How often mail handlers poll. -/
def pollCount : State L S U → Nat
  | (.handle act h _, _) =>
    match act h with
    | .poll => 1
    | _ => 0
  | _ => 0

/-- What `n` steps cost together. -/
def spent (C : Config L S U) (f : State L S U → Nat) : Nat → State L S U → Nat
  | 0, _ => 0
  | n + 1, x => f x + spent C f n (step C x)

end Verif.Task
