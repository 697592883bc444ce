import Verif.Basic
/-
Independent specification of SMTP message data (RFC 5321, 4.5.2), in terms of lines.
Nothing here refers to the model of the code.
-/
namespace Verif.Spec

/-- No CRLF inside. -/
def NoCrlf (l : Bytes) : Prop := ¬ crlf <:+: l

/-- The bytes of a sequence of lines, each followed by CRLF. -/
def linesBytes (ls : List Bytes) : Bytes := ls.flatMap (fun l => l ++ crlf)

/-- Receiver side of transparency: a leading dot is removed. -/
def dropDot : Bytes → Bytes
  | 46 :: l => l
  | l => l

/-- Sender side of transparency: a dot is added in front of a line starting with one. -/
def addDot : Bytes → Bytes
  | 46 :: l => 46 :: 46 :: l
  | l => l

/-- The end-of-data marker occurs: at the very beginning, or after a CRLF. -/
def HasMarker (raw : Bytes) : Prop := b!".\r\n" <+: raw ∨ b!"\r\n.\r\n" <:+: raw

/-- `raw` starts with a complete message: text lines none of which is a lone dot, the line holding only a
dot, and then `rest`. -/
def IsMessage (raw : Bytes) (ls : List Bytes) (rest : Bytes) : Prop :=
  raw = linesBytes ls ++ b!".\r\n" ++ rest ∧ ∀ l ∈ ls, NoCrlf l ∧ l ≠ b!"."

/-- `raw` holds no complete message: some lines, none a lone dot, and an unfinished line `part`. -/
def IsUnfinished (raw : Bytes) (ls : List Bytes) (part : Bytes) : Prop :=
  raw = linesBytes ls ++ part ∧ (∀ l ∈ ls, NoCrlf l ∧ l ≠ b!".") ∧ NoCrlf part

/-- The text a receiver must see for the lines `ls`. -/
def decodedLines (ls : List Bytes) : Bytes := ls.flatMap (fun l => dropDot l ++ crlf)

/-- What may already be delivered of an unfinished last line: nothing while it may still turn out to be
the end marker, otherwise the line without its leading dot. -/
def decodedPart (part : Bytes) : Bytes :=
  if part = b!"." ∨ part = b!".\r" then [] else dropDot part

/-- The lines a message consists of: split at every CRLF; the last element is what follows the last
CRLF. -/
def splitCrlf : Bytes → List Bytes
  | [] => [[]]
  | [c] => [[c]]
  | c :: d :: r =>
    if c = 13 ∧ d = 10 then [] :: splitCrlf r
    else
      match splitCrlf (d :: r) with
      | l :: ls => (c :: l) :: ls
      | [] => [[c]]

/-- Lines joined by CRLF (inverse of `splitCrlf`). -/
def joinCrlf : List Bytes → Bytes
  | [] => []
  | [l] => l
  | l :: ls => l ++ crlf ++ joinCrlf ls

/-- Dot-stuffing of a message: every line that starts with a dot gets one more. -/
def stuff (m : Bytes) : Bytes := joinCrlf ((splitCrlf m).map addDot)

/-- A message as it must travel: stuffed, completed to whole lines, and the lone dot line. -/
def wireForm (m : Bytes) : Bytes :=
  stuff m ++ (if m = [] ∨ crlf <:+ m then b!".\r\n" else b!"\r\n.\r\n")

/-- A message completed to whole lines. -/
def wholeLines (m : Bytes) : Bytes :=
  if m = [] ∨ crlf <:+ m then m else m ++ crlf

/-- First position at which `pat` occurs. -/
def findSub (pat : Bytes) : Bytes → Option Nat
  | [] => if pat = [] then some 0 else none
  | c :: r => if pat.isPrefixOf (c :: r) then some 0 else (findSub pat r).map (· + 1)

/-- The naive algorithm of the project's own fuzz target, transcribed from
smtp-message/fuzz/fuzz_targets/fuzz_data_parser.rs:31-66: position of the end of the text and of the
first byte after the marker. -/
def naiveEof (raw : Bytes) : Option (Nat × Nat) :=
  if raw.take 3 = b!".\r\n" then some (0, 3)
  else (findSub b!"\r\n.\r\n" raw).map (fun p => (p + 2, p + 5))

/-- The third bytes of all 3-byte windows that are not `"\r\n."`. -/
def naiveWindows : Bytes → Bytes
  | a :: b :: c :: r =>
    if a = 13 ∧ b = 10 ∧ c = 46 then naiveWindows (b :: c :: r) else c :: naiveWindows (b :: c :: r)
  | _ => []

/-- The fuzz target's expected output and remaining input. -/
def naive (raw : Bytes) : Option (Bytes × Bytes) :=
  (naiveEof raw).map fun (e, rem) =>
    if e < 2 then (raw.take e, raw.drop rem)
    else
      ((if raw.take 1 = b!"." then (raw.take 2).drop 1 else raw.take 2) ++ naiveWindows (raw.take e),
        raw.drop rem)

end Verif.Spec
