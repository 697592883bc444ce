import Verif.Props.ParseErrors
import Verif.Props.Rfc5321
import Verif.Props.Client
import Verif.Props.Hooks
/-
C94: what the server sends are replies of RFC 5321, and a client built on this library understands every reply of the
RFC but those that end in a code without text.
-/
namespace Verif
open Spec Server
open Ip (stdIp)
variable {L : IpLib} {S U : Type}

namespace Rfc5321

private theorem digits {n : Nat} {d : Bytes} (h : Digits3 n d) (hn : IsCode n) : CodeText d n := by
  obtain ⟨a, b, c, rfl, ⟨ha1, ha2⟩, ⟨hb1, hb2⟩, ⟨hc1, hc2⟩, rfl⟩ := h
  obtain ⟨h1, h2, h3⟩ := hn
  rw [UInt8.le_iff_toNat_le] at ha1 ha2 hb1 hb2 hc1 hc2
  simp at ha1 ha2 hb1 hb2 hc1 hc2
  refine ⟨a, b, c, rfl, ⟨?_, ?_⟩, ⟨?_, ?_⟩, ⟨?_, ?_⟩, rfl⟩ <;> rw [UInt8.le_iff_toNat_le] <;> simp <;> omega

private theorem digits' {n : Nat} {d : Bytes} (h : CodeText d n) : Digits3 n d := by
  obtain ⟨a, b, c, rfl, ⟨ha1, ha2⟩, ⟨hb1, hb2⟩, ⟨hc1, hc2⟩, rfl⟩ := h
  rw [UInt8.le_iff_toNat_le] at ha1 ha2 hb1 hb2 hc1 hc2
  simp at ha1 ha2 hb1 hb2 hc1 hc2
  refine ⟨a, b, c, rfl, ⟨?_, ?_⟩, ⟨?_, ?_⟩, ⟨?_, ?_⟩, rfl⟩ <;> rw [UInt8.le_iff_toNat_le] <;> simp <;> omega

theorem reply_of_wire {n : Nat} {t : Bytes} {ws : List Bytes} (h : ReplyOnWire n t ws) (hn : IsCode n)
    (ht : ∀ c ∈ t, TextByte c) (hne : t ≠ []) : Reply ws.flatten n t false := by
  induction h with
  | nothing => simp at hne
  | @last t w h1 h2 h3 =>
    obtain ⟨d, hd, rfl⟩ := h3
    simpa [crlf] using Reply.last (digits hd hn) ⟨h1, ht⟩
  | @more t w rest ws h1 h2 h3 h4 ih =>
    obtain ⟨d, hd, rfl⟩ := h2
    have ih := ih (fun c hc => ht c (by simp [hc])) h3
    have := Reply.more (digits hd hn) (.inr ⟨by rintro rfl; simp at h1, fun c hc => ht c (by simp [hc])⟩ : t = [] ∨ TextString t) ih
    simpa [crlf] using this

end Rfc5321

/-- C94. What the server writes for a reply with a sendable text that is not empty, and a code of the RFC, is a reply of
the RFC with that code and text, however long. -/
theorem c94_reply (r : Reply) (hs : Sendable r) (hne : r.2 ≠ []) (hc : Rfc5321.IsCode r.1.code.toNat) :
    Rfc5321.Reply (wire r).flatten r.1.code.toNat r.2 false :=
  Rfc5321.reply_of_wire (c46_wire r hs (by rw [UInt16.lt_iff_toNat_lt]; have := hc.2.1; simp; omega)) hc hs hne

/-- C94. All a session that ended normally has written is a sequence of replies of the RFC, the ones on record, if these
have codes of the RFC and no empty text. -/
theorem c94_session (C : Config L S U) (fuel : Nat) (incoming : List (SrcEv Bytes)) (outgoing : BSink)
    (ho : outgoing.out = []) (s : S) (u : U) (w : World L S U) (h : interact C fuel incoming outgoing s u = (.ok (), w))
    (hc : ∀ r ∈ repliesOf w.trace, Rfc5321.IsCode r.1.code.toNat ∧ r.2 ≠ []) :
    ∃ xs : List Bytes, w.writer.out.flatten = xs.flatten ∧ xs.length = (repliesOf w.trace).length ∧
      ∀ x r, (x, r) ∈ xs.zip (repliesOf w.trace) → Rfc5321.Reply x r.1.code.toNat r.2 false := by
  obtain ⟨new, h1, h2⟩ := c46_output C fuel incoming outgoing s u _ _ h
  have hs := interact_sendable C fuel incoming outgoing s u
  rw [h] at hs
  rw [h2 rfl, ho] at h1
  refine ⟨(repliesOf w.trace).map fun r => (wire r).flatten, ?_, by simp, ?_⟩
  · rw [h1]
    simp [List.flatMap, List.flatten_flatten, List.map_map, Function.comp_def]
  · intro x r hx
    rw [List.zip_map_left, List.mem_map] at hx
    obtain ⟨⟨a, b⟩, hab, e⟩ := hx
    have : a = b := by
      have := List.mem_iff_getElem.1 hab
      obtain ⟨i, hi, e⟩ := this
      simp at e
      rw [← e.1, ← e.2]
    subst this
    simp at e
    obtain ⟨rfl, rfl⟩ := e
    have hm := (List.of_mem_zip hab).1
    exact c94_reply a (hs a hm) (hc a hm).2 (hc a hm).1

/-- C94. All default replies have codes of the RFC and some text. -/
theorem c94_defaults (R : Required L S U) (h : Hook) (s : S) :
    Rfc5321.IsCode (says R.toConfig h s).1.code.toNat ∧ (says R.toConfig h s).2 ≠ [] := by
  cases h <;> refine ⟨?_, by simp [says, Required.toConfig]⟩
  case welcomeBanner => exact (by decide : 200 ≤ 220 ∧ 220 < 600 ∧ 220 / 10 % 10 ≤ 5)
  case mailOkay => exact (by decide : 200 ≤ 250 ∧ 250 < 600 ∧ 250 / 10 % 10 ≤ 5)
  case rcptOkay => exact (by decide : 200 ≤ 250 ∧ 250 < 600 ∧ 250 / 10 % 10 ≤ 5)
  case dataOkay => exact (by decide : 200 ≤ 354 ∧ 354 < 600 ∧ 354 / 10 % 10 ≤ 5)
  case mailAccepted => exact (by decide : 200 ≤ 250 ∧ 250 < 600 ∧ 250 / 10 % 10 ≤ 5)
  case commandUnimplemented => exact (by decide : 200 ≤ 502 ∧ 502 < 600 ∧ 502 / 10 % 10 ≤ 5)
  case commandUnrecognized => exact (by decide : 200 ≤ 500 ∧ 500 < 600 ∧ 500 / 10 % 10 ≤ 5)
  all_goals exact (by decide : 200 ≤ 503 ∧ 503 < 600 ∧ 503 / 10 % 10 ≤ 5)

/-! ### The greeting -/

private theorem mem_joinWith {sep c : UInt8} {ls : List Bytes} (h : c ∈ joinWith sep ls) :
    c = sep ∨ ∃ l ∈ ls, c ∈ l := by
  induction ls with
  | nil => simp [joinWith] at h
  | cons l ls ih =>
    cases ls with
    | nil => exact .inr ⟨l, by simp, h⟩
    | cons m ms =>
      rw [joinWith] at h
      · simp only [List.mem_append, List.mem_singleton] at h
        rcases h with (h | h) | h
        · exact .inr ⟨l, by simp, h⟩
        · exact .inl h
        · rcases ih h with h | ⟨k, hk, hc⟩
          · exact .inl h
          · exact .inr ⟨k, by simp [hk], hc⟩
      · simp

private theorem text_alnumdash : ∀ c : UInt8, AlnumDash c → TextByte c := by decide +kernel
private theorem text_alnum : ∀ c : UInt8, Alnum c → TextByte c := by decide +kernel
private theorem text_ip4 : ∀ c : UInt8, (IsDigit c ∨ c = 46) → TextByte c := by decide +kernel
private theorem text_ip6 : ∀ c : UInt8,
    (IsDigit c ∨ (65 ≤ c ∧ c ≤ 70) ∨ (97 ≤ c ∧ c ≤ 102) ∨ c = 58 ∨ c = 46) → TextByte c := by decide +kernel

theorem domain_textBytes (hL : IpLaws L) {x : Bytes} {d : Domain L} (h : DomainText L x d) : ∀ c ∈ x, TextByte c := by
  cases h with
  | host _ h =>
    obtain ⟨ls, _, h2, rfl⟩ := h
    intro c hc
    rcases mem_joinWith hc with rfl | ⟨l, hl, hc⟩
    · decide
    · obtain ⟨a, r, rfl, k1, k2⟩ := h2 l hl
      rcases List.mem_cons.1 hc with rfl | hc
      · exact text_alnum _ k1
      · exact text_alnumdash _ (k2 c hc)
  | v4 y a _ h =>
    intro c hc
    simp only [List.mem_append, List.mem_singleton] at hc
    rcases hc with (rfl | hc) | rfl
    · decide
    · exact text_ip4 c (hL.chars4 y a h c hc)
    · decide
  | v6 y a _ h =>
    intro c hc
    simp only [List.mem_append, List.mem_singleton] at hc
    rcases hc with (hc | hc) | rfl
    · revert c; decide +kernel
    · exact text_ip6 c (hL.chars6 y a h c hc)
    · decide

/-- C94. The default welcome of a server whose host name is a domain or an address literal of the RFC (and at most 492
bytes long) is a greeting of the RFC, in one line. -/
theorem c94_greeting {z : Nat} (hz : z ≤ 1) (R : Required L S U) (s : S) (d : Domain (stdIp z))
    (hh : Rfc5321.HostText z (R.hostname s) d) (hl : (R.hostname s).length ≤ 492) :
    Rfc5321.Greeting z (wire (R.toConfig.welcomeBanner s)).flatten := by
  have ht := domain_textBytes (Ip.stdIp_laws hz) (hh.domain hz)
  obtain ⟨w, h1, dd, h2, rfl⟩ := c55_wire R s ht hl
  have h3 : dd = b!"220" := by
    obtain ⟨a, b, c, rfl, ⟨ha1, ha2⟩, ⟨hb1, hb2⟩, ⟨hc1, hc2⟩, hn⟩ := h2
    rw [UInt8.le_iff_toNat_le] at ha1 ha2 hb1 hb2 hc1 hc2
    simp at ha1 ha2 hb1 hb2 hc1 hc2
    have e1 : a = 50 := UInt8.toNat_inj.1 (by simp; omega)
    have e2 : b = 50 := UInt8.toNat_inj.1 (by simp; omega)
    have e3 : c = 48 := UInt8.toNat_inj.1 (by simp; omega)
    rw [e1, e2, e3]
  subst h3
  rw [h1]
  refine ⟨R.hostname s, d, b!" Service ready", hh, .inr ⟨b!"Service ready", ⟨by simp, by decide +kernel⟩, rfl⟩, ?_⟩
  simp [crlf]

/-! ### The client's side -/

private theorem reply_lines {x : Bytes} {n : Nat} {t : Bytes} {e : Bool} (h : Rfc5321.Reply x n t e) (he : e = false) :
    ∃ ws ls, x = ws.flatten ∧ (∀ w ∈ ws, OneLine w) ∧ parseReplyLines ws = some ls ∧
      ∀ acc more, collectReplies acc (ls ++ more) = (⟨n.toUInt16⟩, acc ++ t) :: collectReplies [] more := by
  have hcode : ∀ {d n}, Rfc5321.CodeText d n → (n.toUInt16).toNat = n ∧ d.head? ≠ some 43 := by
    rintro d n ⟨a, b, c, rfl, ⟨ha1, ha2⟩, ⟨hb1, hb2⟩, ⟨hc1, hc2⟩, rfl⟩
    rw [UInt8.le_iff_toNat_le] at ha1 ha2 hb1 hb2 hc1 hc2
    simp at ha1 ha2 hb1 hb2 hc1 hc2
    refine ⟨by simp; omega, ?_⟩
    simp
    rintro rfl
    simp at ha1
  have hno : ∀ t : Bytes, (t = [] ∨ Rfc5321.TextString t) → NoCr t := by
    rintro t (rfl | ⟨_, h⟩)
    · exact NoCr.nil
    · intro c hc; rintro rfl; have := h 13 hc; revert this; decide
  have hd3 : ∀ {d n}, Rfc5321.CodeText d n → NoCr d := by
    rintro d n ⟨a, b, c, rfl, ⟨ha1, ha2⟩, ⟨hb1, hb2⟩, ⟨hc1, hc2⟩, rfl⟩ k hk
    simp only [List.mem_append, List.mem_singleton] at hk
    rcases hk with (rfl | rfl) | rfl <;> rintro rfl <;>
      first | exact absurd ha1 (by decide) | exact absurd hb1 (by decide) | exact absurd hc1 (by decide)
  have hline : ∀ {d n} (t : Bytes) (last : IsLast), Rfc5321.CodeText d n → (t = [] ∨ Rfc5321.TextString t) →
      OneLine (d ++ [if last = .yes then 32 else 45] ++ t ++ crlf) ∧
      ReplyLine.parse (d ++ [if last = .yes then 32 else 45] ++ t ++ crlf) = .ok ⟨⟨n.toUInt16⟩, last, t⟩ := by
    intro d n t last hd ht
    refine ⟨⟨_, rfl, noCr_noCrlf (((hd3 hd).append ?_).append (hno t ht))⟩, ?_⟩
    · intro c hc; simp at hc; subst hc; cases last <;> decide
    · refine (c21_partial _ _ ?_).2 ⟨⟨d, ?_, ?_⟩, noCr_noCrlf (hno t ht)⟩
      · have := (hcode hd).2
        obtain ⟨a, b, c, rfl, _⟩ := hd
        simpa using this
      · rw [(hcode hd).1]; exact Rfc5321.digits' hd
      · cases last <;> simp
  induction h with
  | @last d n t hd ht =>
    obtain ⟨k1, k2⟩ := hline t .yes hd (.inr ht)
    refine ⟨[d ++ [32] ++ t ++ crlf], [⟨⟨n.toUInt16⟩, .yes, t⟩], by simp [crlf], by simpa using k1, ?_, ?_⟩
    · simp only [if_true] at k2
      simp only [parseReplyLines, k2]
    · intro acc more; rfl
  | bare _ => simp at he
  | @more d n t y t' e hd ht _ ih =>
    obtain ⟨ws, ls, rfl, h2, h3, h4⟩ := ih he
    obtain ⟨k1, k2⟩ := hline t .no hd ht
    have e45 : (if IsLast.no = .yes then (32 : UInt8) else 45) = 45 := rfl
    rw [e45] at k1 k2
    refine ⟨(d ++ [45] ++ t ++ crlf) :: ws, ⟨⟨n.toUInt16⟩, .no, t⟩ :: ls, by simp [crlf], ?_, ?_, ?_⟩
    · intro w hw
      rcases List.mem_cons.1 hw with rfl | hw
      · exact k1
      · exact h2 w hw
    · simp only [parseReplyLines, k2, h3]
    · intro acc more
      simp only [List.cons_append, collectReplies, h4]
      simp

/-- C94. A client that reads any sequence of replies of the RFC none of which ends in a code without text, from any
server, in any packets and with any delays, understands exactly these replies: code and whole text. -/
theorem c94_client (rs : List (Bytes × Nat × Bytes)) (hr : ∀ r ∈ rs, Rfc5321.Reply r.1 r.2.1 r.2.2 false)
    (incoming : List (SrcEv Bytes)) (hin : evBytes incoming = (rs.map (·.1)).flatten) :
    clientReplies incoming = some (rs.map fun r => (⟨r.2.1.toUInt16⟩, r.2.2)) := by
  have : ∃ ws ls, (rs.map (·.1)).flatten = ws.flatten ∧ (∀ w ∈ ws, OneLine w) ∧ parseReplyLines ws = some ls ∧
      collectReplies [] ls = rs.map fun r => (⟨r.2.1.toUInt16⟩, r.2.2) := by
    clear hin
    induction rs with
    | nil => exact ⟨[], [], rfl, by simp, rfl, rfl⟩
    | cons r rs ih =>
      obtain ⟨ws, ls, h1, h2, h3, h4⟩ := ih fun r hr' => hr r (by simp [hr'])
      obtain ⟨ws', ls', k1, k2, k3, k4⟩ := reply_lines (hr r (by simp)) rfl
      refine ⟨ws' ++ ws, ls' ++ ls, by simp [k1, h1], ?_, ?_, ?_⟩
      · intro w hw
        rcases List.mem_append.1 hw with hw | hw
        · exact k2 w hw
        · exact h2 w hw
      · have app : ∀ (a b : List Bytes) (x y : List ReplyLine), parseReplyLines a = some x → parseReplyLines b = some y →
            parseReplyLines (a ++ b) = some (x ++ y) := by
          intro a
          induction a with
          | nil => intro b x y hx hy; simp [parseReplyLines] at hx; subst hx; simpa using hy
          | cons w a ih =>
            intro b x y hx hy
            simp only [parseReplyLines] at hx
            split at hx
            · rename_i l ls e1 e2
              simp at hx
              subst hx
              simp [parseReplyLines, e1, ih b ls y e2 hy]
            · simp at hx
        exact app _ _ _ _ k3 h3
      · rw [k4, h4]; simp
  obtain ⟨ws, ls, h1, h2, h3, h4⟩ := this
  obtain ⟨s', h'⟩ := readLines_lines ws (Prep.new incoming) h2 (by show evBytes incoming = _; rw [hin, h1])
  simp only [clientReplies, h', h3, Option.map_some, h4]

/-- C94. A line of the RFC that is a code without text is not understood, whatever the code. -/
theorem c94_bare {x : Bytes} {n : Nat} (h : Rfc5321.CodeText x n) (l : ReplyLine) :
    ReplyLine.parse (x ++ b!"\r\n") ≠ .ok l := by
  intro hp
  obtain ⟨h1, h2, h3⟩ := c22_whole_input _ _ hp
  obtain ⟨a, b, c, rfl, _⟩ := h
  have := congrArg List.length h2
  simp [crlf] at this

/-- C94, a case: a reply of the RFC in three lines, one of them empty, and a bare one. -/
theorem c94_example :
    Rfc5321.Reply b!"250-first\r\n250-\r\n250 last\r\n" 250 b!"firstlast" false ∧
    Rfc5321.Reply b!"250-first\r\n250\r\n" 250 b!"first" true ∧ Rfc5321.CodeText b!"250" 250 := by
  have hc : Rfc5321.CodeText b!"250" 250 := ⟨50, 53, 48, rfl, by decide, by decide, by decide, rfl⟩
  have h1 : Rfc5321.TextString b!"first" := ⟨by simp, by decide +kernel⟩
  have h2 : Rfc5321.TextString b!"last" := ⟨by simp, by decide +kernel⟩
  exact ⟨.more hc (.inr h1) (.more hc (.inl rfl) (.last hc h2)), .more hc (.inr h1) (.bare hc), hc⟩

/-- C94. The codes of the RFC are the numbers its grammar spells. -/
theorem c94_codes (n : Nat) : Rfc5321.IsCode n ↔ ∃ x, Rfc5321.CodeText x n := by
  unfold Rfc5321.IsCode Rfc5321.CodeText
  constructor
  · rintro ⟨h1, h2, h3⟩
    have key : ∀ k : Fin 400, (k.1 + 200) / 10 % 10 ≤ 5 → ∃ a : UInt8, ∃ b : UInt8, ∃ c : UInt8, (50 ≤ a ∧ a ≤ 53) ∧
        (48 ≤ b ∧ b ≤ 53) ∧ (48 ≤ c ∧ c ≤ 57) ∧
        k.1 + 200 = 100 * (a.toNat - 48) + 10 * (b.toNat - 48) + (c.toNat - 48) := by
      intro k hk
      have : ∀ k : Fin 400, (k.1 + 200) / 10 % 10 ≤ 5 →
          (50 ≤ UInt8.ofNat ((k.1 + 200) / 100 + 48) ∧ UInt8.ofNat ((k.1 + 200) / 100 + 48) ≤ 53) ∧
          (48 ≤ UInt8.ofNat ((k.1 + 200) / 10 % 10 + 48) ∧ UInt8.ofNat ((k.1 + 200) / 10 % 10 + 48) ≤ 53) ∧
          (48 ≤ UInt8.ofNat ((k.1 + 200) % 10 + 48) ∧ UInt8.ofNat ((k.1 + 200) % 10 + 48) ≤ 57) ∧
          k.1 + 200 = 100 * ((UInt8.ofNat ((k.1 + 200) / 100 + 48)).toNat - 48) +
            10 * ((UInt8.ofNat ((k.1 + 200) / 10 % 10 + 48)).toNat - 48) + ((UInt8.ofNat ((k.1 + 200) % 10 + 48)).toNat - 48) := by
        decide +kernel
      exact ⟨_, _, _, this k hk⟩
    obtain ⟨a, b, c, ha, hb, hc, hn⟩ := key ⟨n - 200, by omega⟩ (by rw [Nat.sub_add_cancel h1]; exact h3)
    simp only [Nat.sub_add_cancel h1] at hn
    exact ⟨_, a, b, c, rfl, ha, hb, hc, hn⟩
  · rintro ⟨x, a, b, c, _, ⟨a1, a2⟩, ⟨b1, b2⟩, ⟨c1, c2⟩, rfl⟩
    simp only [UInt8.le_iff_toNat_le, UInt8.toNat_ofNat] at a1 a2 b1 b2 c1 c2
    omega

/-- C94. The form of a greeting: the host alone, or the host, a blank and text; nothing else. -/
theorem c94_greeting_form {z : Nat} (hz : z ≤ 1) : Rfc5321.Greeting z b!"220 a\r\n" ∧ Rfc5321.Greeting z b!"220 a hi\r\n" ∧
    ¬ Rfc5321.Greeting z b!"220 a!\r\n" ∧ ¬ Rfc5321.Greeting z b!"220 a \r\n" ∧ ¬ Rfc5321.Greeting z b!"250 a\r\n" := by
  have ha : Rfc5321.HostText z b!"a" (.host b!"a") := .name (.one ⟨97, [], rfl, .inl (.inr (by decide)), .inl rfl⟩)
  have bad : ∀ x d, errorOf (Domain.parse x : Except ParseErr (Domain (stdIp z))) ≠ none → ¬ Rfc5321.HostText z x d := by
    intro x d h hh
    rw [c93_domain hz hh] at h
    exact h rfl
  refine ⟨⟨_, _, [], ha, .inl rfl, rfl⟩, ⟨_, _, b!" hi", ha, .inr ⟨b!"hi", ⟨by simp, by decide +kernel⟩, rfl⟩, rfl⟩, ?_, ?_, ?_⟩
  · rintro ⟨host, d, t, hh, ht, e⟩
    have e : host ++ t ++ b!"\r\n" = b!"a!" ++ b!"\r\n" := by simpa using e.symm
    have e := List.append_cancel_right e
    rcases ht with rfl | ⟨t', _, rfl⟩
    · rw [List.append_nil] at e
      subst e
      exact bad _ _ (by obtain rfl | rfl : z = 0 ∨ z = 1 := by omega
                        all_goals decide +kernel) hh
    · have : (32 : UInt8) ∈ b!"a!" := by rw [← e]; simp
      revert this; decide
  · rintro ⟨host, d, t, hh, ht, e⟩
    have e : host ++ t ++ b!"\r\n" = b!"a " ++ b!"\r\n" := by simpa using e.symm
    have e := List.append_cancel_right e
    rcases ht with rfl | ⟨t', h', rfl⟩
    · rw [List.append_nil] at e
      subst e
      exact bad _ _ (by obtain rfl | rfl : z = 0 ∨ z = 1 := by omega
                        all_goals decide +kernel) hh
    · have e : host ++ b!" " ++ t' = b!"a " := by simpa using e
      cases t' with
      | nil => exact h'.1 rfl
      | cons c t' =>
        cases host with
        | nil => simp at e
        | cons c' host => have := congrArg List.length e; simp at this; omega
  · rintro ⟨host, d, t, hh, ht, e⟩
    simp at e

end Verif
