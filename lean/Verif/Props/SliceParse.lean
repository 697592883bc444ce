import Verif.Proofs.SliceParse
import Verif.Props.Ip
/-
C72: parsing never panics, whatever the bytes, and what is found depends on the given bytes only.
-/
namespace Verif
open Spec ByteSlice SliceParse

variable {L : IpLib}

theorem utf8Only (hL : IpLaws L) : Utf8Only L := by
  intro b hb
  constructor
  · cases h : L.parse4 b with
    | none => rfl
    | some a =>
      have := utf8_ascii fun c hc => (by
        have := hL.chars4 b a h c hc
        simp only [IsDigit, UInt8.le_iff_toNat_le, UInt8.lt_iff_toNat_lt, ← UInt8.toNat_inj] at *
        simp at *
        omega : c < 128)
      simp [this] at hb
  · cases h : L.parse6 b with
    | none => rfl
    | some a =>
      have := utf8_ascii fun c hc => (by
        have := hL.chars6 b a h c hc
        simp only [IsDigit, UInt8.le_iff_toNat_le, UInt8.lt_iff_toNat_lt, ← UInt8.toNat_inj] at *
        simp at *
        omega : c < 128)
      simp [this] at hb

private theorem toResult {α : Type} {s : ByteSlice} (hs : InBuffer s) {r : Option (BRes α)} {x : Nom.IRes α}
    (h : Refines (· = ·) s r x) : SliceParse.nomToResult r = some (Verif.nomToResult x) := by
  rcases refines_iff.1 h with ⟨rfl, rfl⟩ | ⟨rfl, rfl⟩ | ⟨rest, a, b, rfl, rfl, h3, h4, rfl⟩
  · rfl
  · rfl
  · simp only [SliceParse.nomToResult, Verif.nomToResult, len_visible (within_inBuffer h3 hs), Option.map_some]

/-- C72. `Command::parse` never panics, and its result is that of the parser on plain bytes (C27-C36), wherever in
memory the bytes are. -/
theorem c72_command (hL : IpLaws L) (ptr : Nat) (arg : Bytes) :
    commandParse ptr arg = some (Command.parse arg : Except ParseErr (Command L)) := by
  obtain ⟨h1, h2⟩ := c41_of_bytes ptr arg
  have := toResult h1 (refP_command (utf8Only hL) _ h1)
  rw [h2] at this
  exact this

/-- C72. `ReplyLine::parse` never panics: neither a slice nor the assertion on the reply code. -/
theorem c72_reply (ptr : Nat) (arg : Bytes) : replyParse ptr arg = some (ReplyLine.parse arg) := by
  obtain ⟨h1, h2⟩ := c41_of_bytes ptr arg
  have := toResult h1 (refP_reply _ h1)
  rw [h2] at this
  exact this

/-- C72. `Domain::parse` on any part of a buffer: no panic, and the bytes outside of the part are irrelevant. -/
theorem c72_domain (hL : IpLaws L) (s : ByteSlice) (hs : InBuffer s) :
    domainParse s = some (Domain.parse (visible s) : Except ParseErr (Domain L)) :=
  toResult hs (refP_hostname (utf8Only hL) s hs)

/-- C72. `Email::parse` on any part of a buffer. -/
theorem c72_email (hL : IpLaws L) (s : ByteSlice) (hs : InBuffer s) :
    emailParse s = some (Email.parse (visible s) : Except ParseErr (Email L)) :=
  toResult hs (refP_email (utf8Only hL) s hs)

/-- C72. `Domain::parse_slice` and `Email::parse_slice`. -/
theorem c72_slices (hL : IpLaws L) (ptr : Nat) (b : Bytes) :
    domainParseSlice ptr b = some (Domain.parse b : Except ParseErr (Domain L)) ∧
    emailParseSlice ptr b = some (Email.parse b : Except ParseErr (Email L)) := by
  obtain ⟨h1, h2⟩ := c41_of_bytes ptr b
  have k1 := c72_domain hL _ h1
  have k2 := c72_email hL _ h1
  rw [h2] at k1 k2
  exact ⟨k1, k2⟩

/-- C72. The project's fuzz targets fuzz_command_parser and fuzz_reply_parser: no input makes them panic. -/
theorem c72_fuzz_targets {zmin : Nat} (hz : zmin ≤ 1) (ptr : Nat) (data : Bytes) :
    (commandParse ptr data : Option (Except ParseErr (Command (Ip.stdIp zmin)))) ≠ none ∧ replyParse ptr data ≠ none := by
  rw [c72_command (Ip.stdIp_laws hz), c72_reply]
  simp

/-- C72. Any two slices that show the same bytes give the same domain, and the same address. -/
theorem c72_only_visible (hL : IpLaws L) (s t : ByteSlice) (hs : InBuffer s) (ht : InBuffer t) (h : visible s = visible t) :
    (domainParse s : Option (Except ParseErr (Domain L))) = domainParse t ∧
    (emailParse s : Option (Except ParseErr (Email L))) = emailParse t := by
  rw [c72_domain hL s hs, c72_domain hL t ht, c72_email hL s hs, c72_email hL t ht, h]
  exact ⟨rfl, rfl⟩

/-- C72, a case: the part of a buffer between two other words. -/
example : (domainParse ⟨0, b!"xx a.b yy", 3, 6⟩ : Option (Except ParseErr (Domain (Ip.stdIp 1)))) =
    some (.ok (.host b!"a.b")) := by
  rw [c72_domain (Ip.stdIp_laws (by omega)) _ (by decide)]
  have : visible ⟨0, b!"xx a.b yy", 3, 6⟩ = b!"a.b" := by decide
  rw [this]
  congr 1
  refine (c39_exact (Ip.stdIp_laws (by omega)) _ _).2 (.host _ ⟨[b!"a", b!"b"], by simp, ?_, rfl⟩)
  intro l hl
  simp at hl
  rcases hl with rfl | rfl <;> exact ⟨_, [], rfl, by decide +kernel, by simp⟩

end Verif
