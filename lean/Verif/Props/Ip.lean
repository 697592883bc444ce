import Verif.Proofs.Ip
import Verif.Props.Commands
/-
C70: address literals, with the standard library's IP addresses. `zmin` tells which version of the library is meant
(see `Ip.parse6List`).
-/
namespace Verif
open Spec Ip

/-- C70. `[x]` is read as a domain exactly if `x` is four decimal octets with dots in between, and it is that IPv4
address. -/
theorem c70_v4 {zmin : Nat} (hz : zmin ≤ 1) (x : Bytes) (v : Ip.V4) :
    Domain.parse (b!"[" ++ x ++ b!"]") = .ok (.v4 v : Domain (stdIp zmin)) ↔ V4Text x v := by
  rw [c39_exact (stdIp_laws hz)]
  constructor
  · intro h
    generalize hb : b!"[" ++ x ++ b!"]" = b at h
    cases h with
    | v4 y a h1 h2 =>
      simp at hb
      subst hb
      exact parse4_iff.1 h2
  · intro h
    refine .v4 _ _ ?_ (parse4_iff.2 h)
    intro hm
    rcases v4_chars h _ hm with h | h
    · revert h; decide
    · revert h; decide

/-- C70. `[IPv6:x]` is read as a domain exactly if `x` is eight groups of hexadecimal digits, or fewer around one `::`,
the last two possibly written as an IPv4 address, and it is that IPv6 address. -/
theorem c70_v6 {zmin : Nat} (hz : zmin ≤ 1) (x : Bytes) (v : Ip.V6) :
    Domain.parse (b!"[IPv6:" ++ x ++ b!"]") = .ok (.v6 v : Domain (stdIp zmin)) ↔ V6Text zmin x v.1 := by
  rw [c39_exact (stdIp_laws hz)]
  constructor
  · intro h
    generalize hb : b!"[IPv6:" ++ x ++ b!"]" = b at h
    cases h with
    | v6 y a h1 h2 =>
      simp at hb
      subst hb
      exact (parse6_some hz).1 h2
  · intro h
    refine .v6 _ _ ?_ ((parse6_some hz).2 h)
    intro hm
    have := v6_chars h _ hm
    revert this
    unfold Char6
    decide

/-- C70. Every bracketed text that is accepted is one of these two. -/
theorem c70_literals {zmin : Nat} (hz : zmin ≤ 1) (x : Bytes) (d : Domain (stdIp zmin))
    (h : Domain.parse (b!"[" ++ x) = .ok d) :
    (∃ y v, x = y ++ b!"]" ∧ V4Text y v ∧ d = .v4 v) ∨
    (∃ y v, x = b!"IPv6:" ++ y ++ b!"]" ∧ V6Text zmin y v.1 ∧ d = .v6 v) := by
  rw [c39_exact (stdIp_laws hz)] at h
  generalize hb : b!"[" ++ x = b at h
  cases h with
  | host _ hh =>
    exfalso
    obtain ⟨ls, h1, h2, h3⟩ := hh
    subst hb
    rcases ls with _ | ⟨l, ls⟩
    · exact h1 rfl
    · obtain ⟨c, r, rfl, hc, _⟩ := h2 l (by simp)
      have : c = 91 := by
        cases ls <;> simp [joinWith] at h3 <;> exact h3.1.symm
      subst this
      revert hc
      unfold Alnum Letter IsDigit
      decide
  | v4 y a h1 h2 =>
    simp at hb
    exact .inl ⟨y, a, by simpa using hb, parse4_iff.1 h2, rfl⟩
  | v6 y a h1 h2 =>
    simp at hb
    exact .inr ⟨y, a, by simpa using hb, (parse6_some hz).1 h2, rfl⟩

/-- C70. Whatever IP address is in a domain, what is sent for it is read back as the same address. -/
theorem c70_print {zmin : Nat} (hz : zmin ≤ 1) :
    (∀ v, Domain.parse (Domain.v4 v : Domain (stdIp zmin)).sendTo = .ok (.v4 v : Domain (stdIp zmin))) ∧
    (∀ v, Domain.parse (Domain.v6 v : Domain (stdIp zmin)).sendTo = .ok (.v6 v : Domain (stdIp zmin))) :=
  ⟨fun v => c39_roundtrip (stdIp_laws hz) (.v4 v) trivial, fun v => c39_roundtrip (stdIp_laws hz) (.v6 v) trivial⟩

/-- C70. A text denotes at most one address. -/
theorem c70_unique {zmin : Nat} (hz : zmin ≤ 1) (x : Bytes) :
    (∀ v v', V4Text x v → V4Text x v' → v = v') ∧ (∀ g g', V6Text zmin x g → V6Text zmin x g' → g = g') := by
  constructor
  · intro v v' h h'
    have := parse4_iff.2 h
    rw [parse4_iff.2 h'] at this
    simpa using this.symm
  · intro v v' h h'
    have := (parse6_iff hz).2 h
    rw [(parse6_iff hz).2 h'] at this
    simpa using this.symm

/-- The laws C27-C39 ask for hold of the standard library. -/
theorem c70_laws : IpLaws (stdIp 0) ∧ IpLaws (stdIp 1) := ⟨stdIp_laws (by omega), stdIp_laws (by omega)⟩

/-- The address literals of the tests in domain.rs. -/
example : Ip.parse4 b!"123.255.37.2" = some ⟨123, 255, 37, 2⟩ ∧
    (Ip.parse6 1 b!"0::ffff:8.7.6.5").map (·.1) = some [0, 0, 0, 0, 0, 0xffff, 0x0807, 0x0605] ∧
    Ip.parse4 b!"256.1.1.1" = none ∧ Ip.parse4 b!"1.2.3" = none ∧ Ip.parse4 b!"1.2.3.0004" = none ∧
    (Ip.parse6 1 b!"1:2:3:4:5:6:7::8").map (·.1) = none ∧ (Ip.parse6 1 b!"1.2.3.4::").map (·.1) = none := by
  decide +kernel

example : V4Text b!"001.2.3.40" ⟨1, 2, 3, 40⟩ := parse4_iff.1 (by decide +kernel)
example : V6Text 1 b!"2001:DB8::1.2.3.4" [0x2001, 0xdb8, 0, 0, 0, 0, 0x102, 0x304] :=
  (parse6_iff (by omega)).1 (by decide +kernel)

end Verif
