import Verif.Model.Server
import Verif.Proofs.Lines
/-
A client's reading of the server's output: lines by `next_crlf_line`, each parsed by `ReplyLine::parse`, grouped into replies at
the lines that say they are the last of their reply (RFC 5321, 4.2.1).
-/
namespace Verif.Spec

/-- Groups parsed lines into replies. `acc` is the text of the reply that has begun. An unfinished reply is not counted. -/
def collectReplies (acc : Bytes) : List ReplyLine → List Reply
  | [] => []
  | l :: ls =>
    match l.isLast with
    | .yes => (l.code, acc ++ l.line) :: collectReplies [] ls
    | .no => collectReplies (acc ++ l.line) ls

/-- Parses all lines; `none` if one of them is not a reply line. -/
def parseReplyLines : List Bytes → Option (List ReplyLine)
  | [] => some []
  | w :: ws =>
    match ReplyLine.parse w, parseReplyLines ws with
    | .ok l, some ls => some (l :: ls)
    | _, _ => none

/-- The replies a client has understood when it has read everything its connection gave it; `none` if it met a line that is no
reply line, or panicked. -/
def clientReplies (incoming : List (SrcEv Bytes)) : Option (List Reply) :=
  match readLines (Prep.new incoming) with
  | .error _ => none
  | .ok (ws, _) => (parseReplyLines ws).map (collectReplies [])

end Verif.Spec
