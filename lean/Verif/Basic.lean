/-
Common vocabulary: bytes, byte-string literals, exhaustive checks over one byte.
-/
namespace Verif

abbrev Byte := UInt8
/-- A `Bytes` / `BytesMut` / `&[u8]` / `SmtpString` value of the code is the list of its bytes. -/
abbrev Bytes := List UInt8

/-- `b!"DATA\r\n"` is the explicit list of the UTF-8 bytes of the literal, like Rust's `b"DATA\r\n"`. -/
macro:max "b!" s:str : term => do
  let elems := s.getString.toUTF8.toList.map fun (b : UInt8) =>
    (Lean.Syntax.mkNumLit (toString b.toNat))
  let elems : Array (Lean.TSyntax `term) := (elems.map fun e => ⟨e⟩).toArray
  `(([ $elems,* ] : List UInt8))

/-- carriage return, `b'\r'` -/
notation "cCR" => (13 : UInt8)
/-- line feed, `b'\n'` -/
notation "cLF" => (10 : UInt8)
/-- full stop, `b'.'` -/
notation "cDOT" => (46 : UInt8)

/-- `b"\r\n"` -/
abbrev crlf : Bytes := [cCR, cLF]

/-- A statement about every byte is decidable by looking at the 256 of them. -/
instance decForallByte (p : UInt8 → Prop) [DecidablePred p] : Decidable (∀ x : UInt8, p x) :=
  if h : ∀ n : Fin 256, p ⟨⟨n⟩⟩ then
    .isTrue (fun x => h x.toBitVec.toFin)
  else
    .isFalse (fun h' => h (fun n => h' ⟨⟨n⟩⟩))

end Verif
