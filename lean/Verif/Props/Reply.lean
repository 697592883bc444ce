import Verif.Model.Reply
import Verif.Spec.Reply
import Verif.Proofs.Nom
/-
C17 - C26: reply lines and multi-line replies.
-/
namespace Verif
open Spec Nom

theorem allowed_iff (c : UInt8) : ReplyLine.allowed c = true ↔ TextByte c := by
  simp [ReplyLine.allowed, TextByte]

private theorem firstBad {text : Bytes} {p : Nat}
    (h : text.findIdx? (fun x => !ReplyLine.allowed x) = some p) :
    ∃ b, text[p]? = some b ∧ ¬ TextByte b ∧ ∀ q < p, ∀ c, text[q]? = some c → TextByte c := by
  rw [List.findIdx?_eq_some_iff_getElem] at h
  obtain ⟨hp, h1, h2⟩ := h
  refine ⟨text[p], by simp, ?_, ?_⟩
  · rw [← allowed_iff]; simpa using h1
  · intro q hq c hc
    have hq' : q < text.length := by omega
    rw [List.getElem?_eq_getElem hq'] at hc
    simp at hc; subst hc
    rw [← allowed_iff]; simpa using h2 q hq

/-- C17. `build` accepts exactly the texts of at most 506 bytes made of TAB and printable ASCII, and
returns a line with the given parts. -/
theorem c17_build_ok (code : ReplyCode) (last : IsLast) (text : Bytes) (l : ReplyLine) :
    ReplyLine.build code last text = .ok l ↔
      (text.length ≤ 506 ∧ ∀ c ∈ text, TextByte c) ∧ l = ⟨code, last, text⟩ := by
  unfold ReplyLine.build ReplyLine.maxLen
  by_cases h : text.length > 506
  · simp [h]; omega
  · rw [if_neg h]
    cases hf : text.findIdx? (fun x => !ReplyLine.allowed x) with
    | none =>
      simp [List.findIdx?_eq_none_iff, allowed_iff] at hf
      have hl : text.length ≤ 506 := by omega
      simp [hl, eq_comm]
      rintro rfl; simpa using hf
    | some p =>
      obtain ⟨b, h1, h2, _⟩ := firstBad hf
      simp
      intro _ h3
      exact absurd (h3 b (List.mem_of_getElem? h1)) h2

/-- C17. Too long a text is reported with its length and the limit. -/
theorem c17_too_long (code : ReplyCode) (last : IsLast) (text : Bytes) (h : 506 < text.length) :
    ReplyLine.build code last text = .error (.lineTooLong text.length 506) := by
  simp [ReplyLine.build, ReplyLine.maxLen, h]

/-- C17. Otherwise the error names the first byte that is not allowed and its position. -/
theorem c17_bad_byte (code : ReplyCode) (last : IsLast) (text : Bytes) (b : UInt8) (p : Nat)
    (h : text.length ≤ 506) :
    ReplyLine.build code last text = .error (.disallowedByte b p) ↔
      text[p]? = some b ∧ ¬ TextByte b ∧ ∀ q < p, ∀ c, text[q]? = some c → TextByte c := by
  unfold ReplyLine.build ReplyLine.maxLen
  rw [if_neg (by omega)]
  cases hf : text.findIdx? (fun x => !ReplyLine.allowed x) with
  | none =>
    simp [List.findIdx?_eq_none_iff, allowed_iff] at hf
    simp
    intro h1 h2
    exact absurd (hf b (List.mem_of_getElem? h1)) h2
  | some p' =>
    obtain ⟨b', h1, h2, h3⟩ := firstBad hf
    simp [List.getD_eq_getElem?_getD, h1]
    constructor
    · rintro ⟨rfl, rfl⟩; exact ⟨h1, h2, h3⟩
    · rintro ⟨k1, k2, k3⟩
      have : p = p' := by
        rcases Nat.lt_trichotomy p p' with hlt | rfl | hlt
        · exact absurd (h3 p hlt b k1) k2
        · rfl
        · exact absurd (k3 p' hlt b' h1) h2
      subst this
      rw [h1] at k1; simp at k1
      exact ⟨k1, rfl⟩

private theorem digits_of_code (c : UInt16) (h : c < 1000) :
    Digits3 c.toNat [((c % 1000) / 100).toUInt8 + 48, ((c % 100) / 10).toUInt8 + 48,
      (c % 10).toUInt8 + 48] := by
  have h : c.toNat < 1000 := by simpa [UInt16.lt_iff_toNat_lt] using h
  refine ⟨_, _, _, rfl, ?_⟩
  simp [IsDigit, UInt8.le_iff_toNat_le]
  omega

private theorem noCrlf_of_no_cr {b : Bytes} (h : cCR ∉ b) : NoCrlf b := fun hi =>
  h (hi.subset (by simp))

private theorem cr_not_text : ¬ TextByte cCR := by decide
private theorem cr_not_digit {c : UInt8} (h : IsDigit c) : cCR ≠ c := by
  rintro rfl; revert h; decide

/-- C18. A built line with a code below 1000 is written as the wire form of a reply line: three digits
spelling the code, space or dash, the text, CRLF; one line of at most 512 bytes. -/
theorem c18_wire_form (code : ReplyCode) (last : IsLast) (text : Bytes) (l : ReplyLine)
    (hb : ReplyLine.build code last text = .ok l) (hc : code.code < 1000) :
    IsReplyWire l.sendTo code.code.toNat (last = .yes) text ∧ l.sendTo.length ≤ 512 ∧
      OneLine l.sendTo := by
  obtain ⟨⟨hl, ht⟩, rfl⟩ := (c17_build_ok _ _ _ _).1 hb
  have hd := digits_of_code code.code hc
  obtain ⟨a, b, c, e, ha, hb', hc', hn⟩ := hd
  refine ⟨⟨_, digits_of_code code.code hc, ?_⟩, ?_, ?_⟩
  · cases last <;> simp [ReplyLine.sendTo]
  · cases last <;> simp [ReplyLine.sendTo] <;> omega
  · refine ⟨[a, b, c] ++ [if last = .yes then 32 else 45] ++ text, ?_, ?_⟩
    · rw [← e]; cases last <;> simp [ReplyLine.sendTo]
    · apply noCrlf_of_no_cr
      simp
      refine ⟨cr_not_digit ha, cr_not_digit hb', cr_not_digit hc', ?_, fun h => cr_not_text (ht _ h)⟩
      cases last <;> decide

/-- C19. `byte_len` is the length of what is written, for every reply line. -/
theorem c19_byte_len (l : ReplyLine) : l.sendTo.length = l.byteLen := by
  cases hl : l.isLast <;> simp [ReplyLine.sendTo, ReplyLine.byteLen, hl] <;> omega

private theorem isDigit_iff (c : UInt8) : (48 ≤ c && c ≤ 57) = true ↔ IsDigit c := by
  simp [IsDigit]

private theorem u16_digits {d : Bytes} {v : UInt16} (hd : ∀ c ∈ d, IsDigit c) (hne : d ≠ [])
    (h : d.foldl (fun n c => n * 10 + (c.toNat - 48)) 0 = v.toNat) : ReplyLine.u16FromStr d = some v := by
  have hh : ReplyLine.stripPlus d = d := by
    unfold ReplyLine.stripPlus
    rw [if_neg]
    intro h
    have := hd 43 (List.mem_of_head? h); revert this; decide
  unfold ReplyLine.u16FromStr
  simp only [hh]
  rw [if_neg]
  · have := v.toNat_lt
    simp only [h]
    rw [if_pos this]; simp
  · simp [hne]
    intro c hc; simpa [IsDigit] using hd c hc

/-- The code field: what `u16::from_str` makes of three bytes. -/
theorem u16_three {a b c : UInt8} {v : UInt16} :
    ReplyLine.u16FromStr [a, b, c] = some v ↔
      (Digits3 v.toNat [a, b, c] ∨
        (a = 43 ∧ IsDigit b ∧ IsDigit c ∧ v.toNat = 10 * (b.toNat - 48) + (c.toNat - 48))) := by
  constructor
  · intro h
    unfold ReplyLine.u16FromStr at h
    by_cases ha : a = 43
    · subst ha
      simp only [ReplyLine.stripPlus, List.head?_cons, if_true, List.tail_cons] at h
      split at h
      · simp at h
      · rename_i hd
        have hd' : IsDigit b ∧ IsDigit c := by simpa [IsDigit, and_assoc] using hd
        simp at h
        obtain ⟨⟨h1, h2⟩, h3, h4⟩ := hd'
        right
        refine ⟨rfl, ⟨h1, h2⟩, ⟨h3, h4⟩, ?_⟩
        obtain ⟨hlt, rfl⟩ := h
        simp
        omega
    · have hh : ReplyLine.stripPlus [a, b, c] = [a, b, c] := by
        simp [ReplyLine.stripPlus, ha]
      simp only [hh] at h
      split at h
      · simp at h
      · rename_i hd
        have hd' : IsDigit a ∧ IsDigit b ∧ IsDigit c := by simpa [IsDigit, and_assoc] using hd
        simp at h
        obtain ⟨⟨h1, h2⟩, ⟨h3, h4⟩, h5, h6⟩ := hd'
        left
        refine ⟨a, b, c, rfl, ⟨h1, h2⟩, ⟨h3, h4⟩, ⟨h5, h6⟩, ?_⟩
        obtain ⟨hlt, rfl⟩ := h
        simp
        omega
  · rintro (⟨a', b', c', e, h1, h2, h3, hn⟩ | ⟨rfl, h2, h3, hn⟩)
    · simp at e; obtain ⟨rfl, rfl, rfl⟩ := e
      apply u16_digits
      · simp [h1, h2, h3]
      · simp
      · simp; omega
    · have := u16_digits (d := [b, c]) (v := v) (by simp [h2, h3]) (by simp) (by simp; omega)
      have hb : b ≠ 43 := by rintro rfl; revert h2; decide
      unfold ReplyLine.u16FromStr at this ⊢
      simpa [ReplyLine.stripPlus, hb] using this

/-- Exactly the inputs `parse` accepts. -/
theorem replyParse_iff (i : Bytes) (l : ReplyLine) :
    ReplyLine.parse i = .ok l ↔
      ∃ d, (Digits3 l.code.code.toNat d ∨ ∃ b c, d = [43, b, c] ∧ IsDigit b ∧ IsDigit c ∧
          l.code.code.toNat = 10 * (b.toNat - 48) + (c.toNat - 48)) ∧
        i = d ++ [if l.isLast = .yes then 32 else 45] ++ l.line ++ crlf ∧ NoCrlf l.line := by
  have hres : ReplyLine.parse i = .ok l ↔ ReplyLine.parser i = .done [] l := by
    unfold ReplyLine.parse nomToResult
    cases ReplyLine.parser i with
    | done r a => cases r <;> simp
    | error => simp
    | incomplete => simp
  rw [hres]
  unfold ReplyLine.parser
  simp only [bind_done, pure_done]
  constructor
  · rintro ⟨r1, code, h1, r2, last, h2, r3, line, h3, rfl, rfl⟩
    obtain ⟨v, hm, rfl⟩ := mapP_done.1 h1
    obtain ⟨hm, hv⟩ := verify_done.1 hm
    obtain ⟨d, hm, hu⟩ := mapRes_done.1 hm
    obtain ⟨rfl, hlen⟩ := take_done.1 hm
    obtain ⟨s, hs, rfl⟩ := mapP_done.1 h2
    obtain ⟨hl, h3⟩ := takeUntilAndConsume_crlf.1 h3
    match d, hlen with
    | [a, b, c], _ =>
    refine ⟨[a, b, c], ?_, ?_, hl⟩
    · rcases u16_three.1 hu with h | ⟨rfl, hb, hc, hn⟩
      · exact .inl h
      · exact .inr ⟨b, c, rfl, hb, hc, hn⟩
    · rcases alt_done.1 hs with hs | ⟨_, hs⟩
      · obtain ⟨rfl, rfl⟩ := tag_done.1 hs
        simp [h3]
      · obtain ⟨rfl, rfl⟩ := tag_done.1 hs
        simp [h3]
  · rintro ⟨d, hd, rfl, hl⟩
    have hcode : ∃ a b c, d = [a, b, c] ∧ ReplyLine.u16FromStr [a, b, c] = some l.code.code ∧
        l.code.code < 1000 := by
      rcases hd with h | ⟨b, c, rfl, hb, hc, hn⟩
      · obtain ⟨a, b, c, rfl, ha, hb, hc, hn⟩ := h
        refine ⟨a, b, c, rfl, u16_three.2 (.inl ⟨a, b, c, rfl, ha, hb, hc, hn⟩), ?_⟩
        simp [IsDigit, UInt8.le_iff_toNat_le] at ha hb hc
        simp [UInt16.lt_iff_toNat_lt]; omega
      · refine ⟨43, b, c, rfl, u16_three.2 (.inr ⟨rfl, hb, hc, hn⟩), ?_⟩
        simp [IsDigit, UInt8.le_iff_toNat_le] at hb hc
        simp [UInt16.lt_iff_toNat_lt]; omega
    obtain ⟨a, b, c, rfl, hu, hlt⟩ := hcode
    refine ⟨_, l.code, mapP_done.2 ⟨l.code.code, verify_done.2 ⟨mapRes_done.2 ⟨[a, b, c],
      take_done.2 ⟨by simp; rfl, rfl⟩, hu⟩, by simpa using hlt⟩, rfl⟩, ?_⟩
    refine ⟨l.line ++ crlf, l.isLast, mapP_done.2 ?_, [], l.line,
      takeUntilAndConsume_crlf.2 ⟨hl, by simp⟩, rfl, rfl⟩
    cases hlast : l.isLast
    · exact ⟨b!" ", alt_done.2 (.inr ⟨by simp [tag, tagBy, compareBy],
        tag_done.2 ⟨by simp, rfl⟩⟩), by simp⟩
    · exact ⟨b!"-", alt_done.2 (.inl (tag_done.2 ⟨by simp, rfl⟩)), by simp⟩

/-- C20. What a built line with a code below 1000 is written as parses back to it. -/
theorem c20_roundtrip (code : ReplyCode) (last : IsLast) (text : Bytes) (l : ReplyLine)
    (hb : ReplyLine.build code last text = .ok l) (hc : code.code < 1000) :
    ReplyLine.parse l.sendTo = .ok ⟨code, last, text⟩ := by
  obtain ⟨⟨d, hd, hw⟩, _⟩ := c18_wire_form code last text l hb hc
  obtain ⟨⟨_, ht⟩, rfl⟩ := (c17_build_ok _ _ _ _).1 hb
  rw [replyParse_iff]
  refine ⟨d, .inl hd, ?_, noCrlf_of_no_cr fun h => cr_not_text (ht _ h)⟩
  simpa using hw

/-- C21, as stated, is false of the code: `u16::from_str` takes a leading plus sign, so this line, which
does not start with three digits, is accepted, as code 25. -/
theorem c21_refuted : ∃ i l, ReplyLine.parse i = .ok l ∧
    ¬ ∃ last text, NoCrlf text ∧ IsReplyWire i l.code.code.toNat last text := by
  refine ⟨b!"+25 hi\r\n", ⟨⟨25⟩, .yes, b!"hi"⟩, ?_, ?_⟩
  · rw [replyParse_iff]
    refine ⟨b!"+25", .inr ⟨50, 53, rfl, by decide, by decide, by decide⟩, by decide,
      noCrlf_of_no_cr (by decide)⟩
  · rintro ⟨last, text, _, d, ⟨a, b, c, rfl, ha, _⟩, e⟩
    simp at e
    obtain ⟨rfl, _⟩ := e
    revert ha; decide

/-- C21. What holds: on lines not starting with a plus sign, `parse` accepts exactly three digits, dash or
space, text without CRLF, CRLF, and returns those parts. -/
theorem c21_partial (i : Bytes) (l : ReplyLine) (hplus : i.head? ≠ some 43) :
    ReplyLine.parse i = .ok l ↔
      IsReplyWire i l.code.code.toNat (l.isLast = .yes) l.line ∧ NoCrlf l.line := by
  rw [replyParse_iff]
  constructor
  · rintro ⟨d, hd, rfl, hl⟩
    rcases hd with hd | ⟨b, c, rfl, _⟩
    · exact ⟨⟨d, hd, by simp⟩, hl⟩
    · simp at hplus
  · rintro ⟨⟨d, hd, rfl⟩, hl⟩
    exact ⟨d, .inl hd, by simp, hl⟩

/-- C21. The exact accepted language: the only other lines are those with a plus sign and two digits. -/
theorem c21_exact_partial (i : Bytes) (l : ReplyLine) :
    ReplyLine.parse i = .ok l ↔ NoCrlf l.line ∧
      (IsReplyWire i l.code.code.toNat (l.isLast = .yes) l.line ∨
        ∃ b c, IsDigit b ∧ IsDigit c ∧ l.code.code.toNat = 10 * (b.toNat - 48) + (c.toNat - 48) ∧
          i = [43, b, c] ++ [if l.isLast = .yes then 32 else 45] ++ l.line ++ crlf) := by
  rw [replyParse_iff]
  constructor
  · rintro ⟨d, hd | ⟨b, c, rfl, hb, hc, hn⟩, rfl, hl⟩
    · exact ⟨hl, .inl ⟨d, hd, by simp⟩⟩
    · exact ⟨hl, .inr ⟨b, c, hb, hc, hn, rfl⟩⟩
  · rintro ⟨hl, ⟨d, hd, rfl⟩ | ⟨b, c, hb, hc, hn, rfl⟩⟩
    · exact ⟨d, .inl hd, by simp, hl⟩
    · exact ⟨_, .inr ⟨b, c, rfl, hb, hc, hn⟩, rfl, hl⟩

/-- C22. An accepted input is exactly one line, and the text is all of it after four bytes. -/
theorem c22_whole_input (i : Bytes) (l : ReplyLine) (h : ReplyLine.parse i = .ok l) :
    OneLine i ∧ i = i.take 4 ++ l.line ++ crlf ∧ (i.take 4).length = 4 := by
  obtain ⟨d, hd, rfl, hl⟩ := (replyParse_iff i l).1 h
  have hd3 : ∃ a b c, d = [a, b, c] ∧ cCR ∉ d := by
    rcases hd with ⟨a, b, c, rfl, ha, hb, hc, _⟩ | ⟨b, c, rfl, hb, hc, _⟩
    · exact ⟨a, b, c, rfl, by simp [cr_not_digit ha, cr_not_digit hb, cr_not_digit hc]⟩
    · exact ⟨43, b, c, rfl, by simp [cr_not_digit hb, cr_not_digit hc]⟩
  obtain ⟨a, b, c, rfl, hcr⟩ := hd3
  refine ⟨⟨_, rfl, ?_⟩, by simp, by simp⟩
  have h4 : cCR ∉ [a, b, c] ++ [if l.isLast = .yes then 32 else 45] := by
    cases l.isLast <;> simpa using hcr
  rintro ⟨x, y, hxy⟩
  by_cases hx : ([a, b, c] ++ [if l.isLast = IsLast.yes then (32 : UInt8) else 45]).length ≤ x.length
  · apply hl
    have : ([a, b, c] ++ [if l.isLast = .yes then 32 else 45]) <+: x :=
      List.prefix_of_prefix_length_le (l₃ := x ++ crlf ++ y) ⟨l.line, hxy.symm⟩ ⟨crlf ++ y, by simp⟩ hx
    obtain ⟨z, rfl⟩ := this
    exact ⟨z, y, by simpa using hxy⟩
  · apply h4
    have : x ++ [cCR] <+: [a, b, c] ++ [if l.isLast = .yes then 32 else 45] :=
      List.prefix_of_prefix_length_le (l₃ := x ++ crlf ++ y) ⟨cLF :: y, by simp⟩ ⟨_, hxy.symm⟩
        (by simp at hx ⊢; omega)
    exact this.subset (by simp)

/-- C23. `custom` accepts exactly the codes below 1000, as they are. -/
theorem c23_custom (code : UInt16) (c : ReplyCode) :
    ReplyCode.custom code = some c ↔ code.toNat < 1000 ∧ c.code = code := by
  unfold ReplyCode.custom
  have : code < 1000 ↔ code.toNat < 1000 := by simp [UInt16.lt_iff_toNat_lt]
  by_cases h : code < 1000
  · simp [h, this.1 h]
    cases c; simp [eq_comm]
  · simp [h]; intro h2; exact absurd (this.2 h2) h

/-- C23. Codes from 1000 on are refused, by a panic. -/
theorem c23_refused (code : UInt16) (h : 1000 ≤ code.toNat) : ReplyCode.custom code = none := by
  unfold ReplyCode.custom
  rw [if_neg]
  simp [UInt16.lt_iff_toNat_lt]; omega

/-- C23. The first three bytes written for an accepted code spell it. -/
theorem c23_digits (code : UInt16) (c : ReplyCode) (last : IsLast) (text : Bytes)
    (h : ReplyCode.custom code = some c) :
    Digits3 code.toNat ((ReplyLine.mk c last text).sendTo.take 3) := by
  have hc : code < 1000 ∧ c = ⟨code⟩ := by
    unfold ReplyCode.custom at h
    by_cases hlt : code < 1000
    · simp [hlt] at h; exact ⟨hlt, h.symm⟩
    · simp [hlt] at h
  obtain ⟨hlt, rfl⟩ := hc
  exact digits_of_code code hlt

private theorem chunks_flatten (s : Bytes) (n k : Nat) :
    ((List.range k).map fun i => (s.take (min s.length ((i + 1) * n))).drop (i * n)).flatten =
      s.take (k * n) := by
  induction k with
  | zero => simp
  | succ k ih =>
    rw [List.range_succ, List.map_append, List.flatten_append, ih]
    simp only [List.map_cons, List.map_nil, List.flatten_cons, List.flatten_nil, List.append_nil]
    have h1 : s.take (min s.length ((k + 1) * n)) = s.take ((k + 1) * n) := by
      rw [List.take_eq_take_iff]; omega
    rw [h1]
    have h2 : s.take (k * n) = (s.take ((k + 1) * n)).take (k * n) := by
      rw [List.take_take, Nat.min_eq_left (Nat.mul_le_mul_right n (by omega))]
    rw [h2, List.take_append_drop]

/-- C24. Chunks are not empty, have at most `n` bytes, all but the last exactly `n`, and concatenate to the
string. -/
theorem c24_chunks (s : Bytes) (n : Nat) (hn : 0 < n) :
    ∃ cs, byteChunks s n = some cs ∧ cs.flatten = s ∧ (∀ c ∈ cs, c ≠ [] ∧ c.length ≤ n) ∧
      ∀ c ∈ cs.dropLast, c.length = n := by
  have hk : ∀ i, i < (s.length + n - 1) / n ↔ i * n < s.length := by
    intro i
    rw [Nat.lt_div_iff_mul_lt hn]
    omega
  have hlen : ∀ i, ((s.take (min s.length ((i + 1) * n))).drop (i * n)).length =
      min s.length ((i + 1) * n) - i * n := by
    intro i; simp
  refine ⟨_, by unfold byteChunks; rw [if_neg (by omega)], ?_, ?_, ?_⟩
  · rw [chunks_flatten]
    apply List.take_of_length_le
    have := (hk ((s.length + n - 1) / n))
    simp at this; exact this
  · intro c hc
    simp only [List.mem_map, List.mem_range] at hc
    obtain ⟨i, hi, rfl⟩ := hc
    have hi := (hk i).1 hi
    have := hlen i
    have e : (i + 1) * n = i * n + n := by rw [Nat.add_mul, Nat.one_mul]
    refine ⟨fun h0 => ?_, by rw [this]; omega⟩
    rw [h0] at this; simp at this; omega
  · intro c hc
    rw [← List.map_dropLast, List.mem_map] at hc
    obtain ⟨i, hi, rfl⟩ := hc
    have hi1 : i + 1 < (s.length + n - 1) / n := by
      rcases hm : (s.length + n - 1) / n with _ | m
      · rw [hm] at hi; simp at hi
      · rw [hm, List.range_succ, List.dropLast_concat] at hi
        simp at hi; omega
    have := (hk _).1 hi1
    rw [hlen]
    have e : (i + 1) * n = i * n + n := by rw [Nat.add_mul, Nat.one_mul]
    omega

/-- C24. A chunk size of 0 panics (division by zero). -/
theorem c24_zero (s : Bytes) : byteChunks s 0 = none := rfl

private theorem replyLines_some {code : ReplyCode} {cs : List Bytes} (hlen : ∀ c ∈ cs, c.length ≤ 506)
    (hok : ∀ c ∈ cs, ∀ b ∈ c, TextByte b) :
    ∃ ls, replyLines code cs = some ls ∧ ls.map (·.line) = cs ∧
      (∀ l ∈ ls, l.code = code ∧ ReplyLine.build code l.isLast l.line = .ok l) ∧
      (∀ l ∈ ls.dropLast, l.isLast = .no) ∧
      (∀ l, ls.getLast? = some l → l.isLast = .yes) := by
  fun_induction replyLines code cs with
  | case1 => exact ⟨[], rfl, by simp⟩
  | case2 t =>
    have hb := (c17_build_ok code .yes t ⟨code, .yes, t⟩).2
      ⟨⟨hlen t (by simp), hok t (by simp)⟩, rfl⟩
    rw [hb]
    exact ⟨[⟨code, .yes, t⟩], rfl, by simp [hb]⟩
  | case3 t ts hne hb =>
    have hb' := (c17_build_ok code .no t ⟨code, .no, t⟩).2
      ⟨⟨hlen t (by simp), hok t (by simp)⟩, rfl⟩
    rw [hb'] at hb; simp [Except.toOption] at hb
  | case4 t ts hne l hb ih =>
    have hb' := (c17_build_ok code .no t ⟨code, .no, t⟩).2
      ⟨⟨hlen t (by simp), hok t (by simp)⟩, rfl⟩
    rw [hb'] at hb; simp [Except.toOption] at hb
    subst hb
    obtain ⟨ls, h1, h2, h3, h4, h5⟩ := ih (fun c hc => hlen c (by simp [hc])) (fun c hc => hok c (by simp [hc]))
    have hls : ls ≠ [] := by
      rintro rfl; simp at h2; exact hne h2
    obtain ⟨l0, ls, rfl⟩ := List.exists_cons_of_ne_nil hls
    refine ⟨⟨code, .no, t⟩ :: l0 :: ls, by rw [h1]; rfl, by simp [← h2], ?_, ?_, ?_⟩
    · intro l hl
      rcases List.mem_cons.1 hl with rfl | hl
      · exact ⟨rfl, hb'⟩
      · exact h3 l hl
    · intro l hl
      simp only [List.dropLast_cons_cons, List.mem_cons] at hl
      rcases hl with rfl | hl
      · rfl
      · exact h4 l hl
    · intro l hl
      apply h5 l
      simpa [List.getLast?_cons_cons] using hl

private theorem replyLines_none {code : ReplyCode} {cs : List Bytes} {c : Bytes} {b : UInt8}
    (hc : c ∈ cs) (hb : b ∈ c) (hbad : ¬ TextByte b) : replyLines code cs = none := by
  have hbuild : ∀ last, (ReplyLine.build code last c).toOption = none := by
    intro last
    cases h : ReplyLine.build code last c with
    | error e => rfl
    | ok l => exact absurd (((c17_build_ok _ _ _ _).1 h).1.2 b hb) hbad
  fun_induction replyLines code cs with
  | case1 => simp at hc
  | case2 t => simp at hc; subst hc; rw [hbuild]; rfl
  | case3 t ts hne h => rfl
  | case4 t ts hne l h ih =>
    rcases List.mem_cons.1 hc with rfl | hc
    · rw [hbuild] at h; simp at h
    · rw [ih hc]; rfl

/-- C25. A reply whose text is TAB / printable is sent as lines that all carry its code and are valid lines
of at most 506 bytes of text, all but the last marked as continued and full, the last as final, and whose
texts concatenate to the text. -/
theorem c25_lines (code : ReplyCode) (text : Bytes) (h : ∀ b ∈ text, TextByte b) :
    ∃ ls, sendReply code text = some ls ∧ (ls.map (·.line)).flatten = text ∧
      (∀ l ∈ ls, l.code = code ∧ ReplyLine.build code l.isLast l.line = .ok l ∧ l.line ≠ []) ∧
      (∀ l ∈ ls.dropLast, l.isLast = .no ∧ l.line.length = 506) ∧
      (∀ l, ls.getLast? = some l → l.isLast = .yes) := by
  obtain ⟨cs, h1, h2, h3, h4⟩ := c24_chunks text 506 (by omega)
  obtain ⟨ls, k1, k2, k3, k4, k5⟩ := replyLines_some (code := code) (cs := cs) (fun c hc => (h3 c hc).2)
    (fun c hc b hb => h b (by rw [← h2]; exact List.mem_flatten.2 ⟨c, hc, hb⟩))
  refine ⟨ls, by simp [sendReply, ReplyLine.maxLen, h1, k1], by rw [k2, h2], ?_, ?_, k5⟩
  · intro l hl
    exact ⟨(k3 l hl).1, (k3 l hl).2, (h3 l.line (by rw [← k2]; exact List.mem_map_of_mem hl)).1⟩
  · intro l hl
    refine ⟨k4 l hl, h4 l.line ?_⟩
    rw [← k2, ← List.map_dropLast]; exact List.mem_map_of_mem hl

/-- C25. `send_reply` panics exactly when the text holds another byte. -/
theorem c25_panics_iff (code : ReplyCode) (text : Bytes) :
    sendReply code text = none ↔ ∃ b ∈ text, ¬ TextByte b := by
  constructor
  · intro hn
    apply Classical.byContradiction
    intro hc
    obtain ⟨ls, h, _⟩ := c25_lines code text (fun b hb => Classical.byContradiction fun h => hc ⟨b, hb, h⟩)
    rw [hn] at h; simp at h
  · rintro ⟨b, hb, hbad⟩
    obtain ⟨cs, h1, h2, _⟩ := c24_chunks text 506 (by omega)
    rw [← h2] at hb
    obtain ⟨c, hc, hb⟩ := List.mem_flatten.1 hb
    simp [sendReply, ReplyLine.maxLen, h1, replyLines_none hc hb hbad]

/-- C26, as stated, is false of the code: an empty reply text puts no line on the wire. -/
theorem c26_refuted : ∀ code, sendReply code [] = some [] := by
  intro code; rfl

/-- C26. What holds: a non-empty sendable text puts at least one line on the wire, the last one final. -/
theorem c26_partial (code : ReplyCode) (text : Bytes) (hne : text ≠ []) (h : ∀ b ∈ text, TextByte b) :
    ∃ ls l, sendReply code text = some (ls ++ [l]) ∧ l.isLast = .yes ∧ l.code = code := by
  obtain ⟨ls, h1, h2, h3, _, h5⟩ := c25_lines code text h
  have hls : ls ≠ [] := by rintro rfl; simp at h2; exact hne h2
  refine ⟨ls.dropLast, ls.getLast hls, by rw [List.dropLast_concat_getLast]; exact h1, ?_, ?_⟩
  · exact h5 _ (by rw [List.getLast?_eq_some_getLast hls])
  · exact (h3 _ (List.getLast_mem hls)).1

/-! Concrete cases. -/

example : ReplyLine.build ⟨250⟩ .yes b!"Okay" = .ok ⟨⟨250⟩, .yes, b!"Okay"⟩ := by rfl
example : ReplyLine.build ⟨250⟩ .yes b!"a\rb" = .error (.disallowedByte 13 1) := by rfl
example : (ReplyLine.mk ⟨220⟩ .no b!"hello world!").sendTo = b!"220-hello world!\r\n" := by decide
example : (ReplyLine.mk ⟨7⟩ .yes b!"x").sendTo = b!"007 x\r\n" := by decide
example : ReplyLine.parse b!"450-Temporary\r\n" = .ok ⟨⟨450⟩, .no, b!"Temporary"⟩ := by
  rw [c21_partial _ _ (by decide)]
  exact ⟨⟨b!"450", ⟨52, 53, 48, rfl, by decide⟩, by decide⟩, noCrlf_of_no_cr (by decide)⟩
example : byteChunks b!"abcde" 2 = some [b!"ab", b!"cd", b!"e"] := by decide
example : ReplyCode.custom 999 = some ⟨999⟩ ∧ ReplyCode.custom 1000 = none := by decide
example : ∃ l1 l2, sendReply ⟨250⟩ (List.replicate 600 97) = some [l1, l2] := by
  exact ⟨⟨⟨250⟩, .no, List.replicate 506 97⟩, ⟨⟨250⟩, .yes, List.replicate 94 97⟩, by decide +kernel⟩

end Verif
