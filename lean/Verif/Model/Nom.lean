import Verif.Basic
/-
The part of the parser combinator library nom 3.2 that smtp-message uses (smtp-message/Cargo.toml:16),
macro by macro, on the visible bytes of a `ByteSlice` (that a `ByteSlice` behaves like its visible bytes is
property C41, about Model/ByteSlice.lean). nom's own source is not in /repo: this file is part of the
trusted base, written from its documented behaviour. The contents of `nom::Err` and `Needed` are not
modelled, only which of the three outcomes is reached.
-/
namespace Verif.Nom

/-- `nom::IResult<ByteSlice, O>`: `Done(rest, value)`, `Error(_)`, `Incomplete(_)`. -/
inductive IRes (α : Type) where
  | done (rest : Bytes) (a : α)
  | error
  | incomplete
deriving DecidableEq, Repr

def Parser (α : Type) := Bytes → IRes α

/-- `do_parse!`: run one parser after the other; the first `Error` or `Incomplete` is the result. -/
def Parser.bind {α β : Type} (p : Parser α) (f : α → Parser β) : Parser β := fun i =>
  match p i with
  | .done r a => f a r
  | .error => .error
  | .incomplete => .incomplete

/-- The value at the end of `do_parse!`. -/
def Parser.pure {α : Type} (a : α) : Parser α := fun i => .done i a

/-- `Error`, whatever the input. -/
def Parser.fail {α : Type} : Parser α := fun _ => .error

instance : Monad Parser where
  pure := Parser.pure
  bind := Parser.bind

/-- Outcome of nom's `Compare`: prefix comparison byte by byte with `eq`. -/
inductive Cmp where
  | ok (rest : Bytes)
  | error
  | incomplete
deriving DecidableEq

/-- `Compare::compare` / `compare_no_case` for `&[u8]`: `Error` at the first differing byte, `Incomplete`
if the input is a proper prefix of the tag. -/
def compareBy (eq : UInt8 → UInt8 → Bool) : Bytes → Bytes → Cmp
  | i, [] => .ok i
  | [], _ :: _ => .incomplete
  | c :: i, t :: ts => if eq c t then compareBy eq i ts else .error

/-- ASCII lower-casing of one byte. -/
def lower (c : UInt8) : UInt8 := if 65 ≤ c ∧ c ≤ 90 then c + 32 else c

def tagBy (eq : UInt8 → UInt8 → Bool) (t : Bytes) : Parser Bytes := fun i =>
  match compareBy eq i t with
  | .ok r => .done r (i.take t.length)
  | .error => .error
  | .incomplete => .incomplete

/-- `tag!` -/
def tag (t : Bytes) : Parser Bytes := tagBy (· == ·) t

/-- `tag_no_case!` -/
def tagNoCase (t : Bytes) : Parser Bytes := tagBy (fun a b => lower a == lower b) t

/-- `nom::crlf` -/
def crlfP : Parser Bytes := tag b!"\r\n"

/-- `one_of!` -/
def oneOf (s : Bytes) : Parser UInt8 := fun i =>
  match i with
  | [] => .incomplete
  | c :: r => if s.contains c then .done r c else .error

/-- `is_a!`: the longest run of listed bytes; `Error` only if the first byte is not listed. On empty input
it is `Done` with nothing consumed. -/
def isA (s : Bytes) : Parser Bytes := fun i =>
  match i with
  | [] => .done [] []
  | c :: _ =>
    if s.contains c then .done (i.dropWhile s.contains) (i.takeWhile s.contains) else .error

/-- `eat_separator!`: the longest run of listed bytes, possibly empty; never fails. -/
def eatSeparator (s : Bytes) : Parser Bytes := fun i =>
  .done (i.dropWhile s.contains) (i.takeWhile s.contains)

/-- `take!` -/
def take (n : Nat) : Parser Bytes := fun i =>
  if i.length < n then .incomplete else .done (i.drop n) (i.take n)

/-- `FindSubstring::find_substring`: first position at which `t` occurs. -/
def findSubstring (t : Bytes) : Bytes → Option Nat
  | [] => if t.isEmpty then some 0 else none
  | c :: r => if t.isPrefixOf (c :: r) then some 0 else (findSubstring t r).map (· + 1)

/-- `take_until!` -/
def takeUntil (t : Bytes) : Parser Bytes := fun i =>
  if i.length < t.length then .incomplete
  else
    match findSubstring t i with
    | none => .error
    | some n => .done (i.drop n) (i.take n)

/-- `take_until_and_consume!` -/
def takeUntilAndConsume (t : Bytes) : Parser Bytes := fun i =>
  if i.length < t.length then .incomplete
  else
    match findSubstring t i with
    | none => .error
    | some n => .done (i.drop (n + t.length)) (i.take n)

variable {α β : Type}

/-- `map!` -/
def mapP (p : Parser α) (f : α → β) : Parser β := p.bind fun a => Parser.pure (f a)

/-- `map_res!`: an `Err` of the function is an `Error` of the parser. -/
def mapRes (p : Parser α) (f : α → Option β) : Parser β := p.bind fun a =>
  match f a with
  | some b => Parser.pure b
  | none => Parser.fail

/-- `verify!` -/
def verify (p : Parser α) (f : α → Bool) : Parser α := p.bind fun a =>
  if f a then Parser.pure a else Parser.fail

/-- `opt!` -/
def opt (p : Parser α) : Parser (Option α) := fun i =>
  match p i with
  | .done r a => .done r (some a)
  | .error => .done i none
  | .incomplete => .incomplete

/-- `complete!` -/
def complete (p : Parser α) : Parser α := fun i =>
  match p i with
  | .incomplete => .error
  | x => x

/-- One `|` of `alt!`: the second alternative is tried only after `Error`. -/
def alt (p q : Parser α) : Parser α := fun i =>
  match p i with
  | .error => q i
  | x => x

/-- `preceded!` -/
def preceded (p : Parser α) (q : Parser β) : Parser β := p.bind fun _ => q

/-- `recognize!`: the consumed input instead of the value. -/
def recognize (p : Parser α) : Parser Bytes := fun i =>
  match p i with
  | .done r _ => .done r (i.take (i.length - r.length))
  | .error => .error
  | .incomplete => .incomplete

/-- `many0!`. A turn that consumes nothing is an `Error` (nom compares the remaining input with the input
of the turn). -/
def many0 (p : Parser α) : Parser (List α) := fun i =>
  if i = [] then .done [] []
  else
    match p i with
    | .error => .done i []
    | .incomplete => .incomplete
    | .done r a =>
      if _h : r.length < i.length then
        match many0 p r with
        | .done r' as => .done r' (a :: as)
        | .error => .error
        | .incomplete => .incomplete
      else .error
termination_by i => i.length

/-- The loop of `separated_nonempty_list!` / `separated_list!` after the first element. -/
def sepLoop (sep : Parser β) (p : Parser α) : Parser (List α) := fun i =>
  match sep i with
  | .error => .done i []
  | .incomplete => .incomplete
  | .done i2 _ =>
    if _h2 : i2.length < i.length then
      match p i2 with
      | .error => .done i []
      | .incomplete => .incomplete
      | .done i3 a =>
        if _h3 : i3.length < i2.length then
          match sepLoop sep p i3 with
          | .done r as => .done r (a :: as)
          | .error => .error
          | .incomplete => .incomplete
        else .done i []
    else .done i []
termination_by i => i.length

/-- `separated_nonempty_list!` -/
def separatedNonemptyList (sep : Parser β) (p : Parser α) : Parser (List α) := fun i =>
  match p i with
  | .error => .error
  | .incomplete => .incomplete
  | .done r a =>
    if r.length < i.length then
      match sepLoop sep p r with
      | .done r' as => .done r' (a :: as)
      | .error => .error
      | .incomplete => .incomplete
    else .error

/-- `separated_nonempty_list_complete!` -/
def separatedNonemptyListComplete (sep : Parser β) (p : Parser α) : Parser (List α) :=
  separatedNonemptyList (complete sep) (complete p)

/-- `separated_list!` -/
def separatedList (sep : Parser β) (p : Parser α) : Parser (List α) := fun i =>
  match p i with
  | .error => .done i []
  | .incomplete => .incomplete
  | .done r a =>
    if r.length < i.length then
      match sepLoop sep p r with
      | .done r' as => .done r' (a :: as)
      | .error => .error
      | .incomplete => .incomplete
    else .error

end Verif.Nom

namespace Verif

/-- `ParseError` (parseresult.rs:6-11), without the contents of nom's errors. -/
inductive ParseErr where
  | didNotConsumeEverything (n : Nat)
  | parseError
  | incompleteString
deriving DecidableEq, Repr

/-- `nom_to_result` (parseresult.rs:13-25). -/
def nomToResult {α : Type} : Nom.IRes α → Except ParseErr α
  | .done rem res => if rem.length = 0 then .ok res else .error (.didNotConsumeEverything rem.length)
  | .error => .error .parseError
  | .incomplete => .error .incompleteString

/-! Character sets (stupidparsers.rs:3-47). -/

def spacesC : Bytes := b!" \t"
def alphaLowerC : Bytes := b!"abcdefghijklmnopqrstuvwxyz"
def alphaUpperC : Bytes := b!"ABCDEFGHIJKLMNOPQRSTUVWXYZ"
def alphaC : Bytes := alphaLowerC ++ alphaUpperC
def digitC : Bytes := b!"0123456789"
def alnumC : Bytes := alphaC ++ digitC
def atextC : Bytes := alnumC ++ b!"!#$%&'*+-/=?^_`{|}~"
def alnumdashC : Bytes := alnumC ++ b!"-"
def graphExceptEquC : Bytes := alnumC ++ b!"!\"#$%&'()*+,-./:;<>?@[\\]^_`{|}~"

/-- `eat_spaces` (stupidparsers.rs:49). -/
def eatSpaces : Nom.Parser Bytes := Nom.eatSeparator spacesC

end Verif
