import Verif.Proofs.CommandRest
import Verif.Props.Commands
import Verif.Props.Reply
/-
C87: which error the parsers report.
-/
namespace Verif
open Spec Nom
variable {L : IpLib}

theorem cmdLine_iff_collect (line : Bytes) : (∃ c : Command L, CmdLine L line c) ↔ ∃ c : Command L, CollectLine L line c := by
  constructor
  · rintro ⟨c, h⟩
    obtain ⟨c', h', _⟩ := cmdLine_collect h
    exact ⟨c', h'⟩
  · rintro ⟨c, h⟩
    exact ⟨c, collect_cmdLine h⟩

theorem nomToResult_more {α : Type} {x : IRes α} {n : Nat} :
    nomToResult x = .error (.didNotConsumeEverything n) ↔ ∃ r a, x = .done r a ∧ r.length = n ∧ 0 < n := by
  cases x with
  | done r b =>
    cases r with
    | nil => simp [nomToResult]; omega
    | cons c r => simp [nomToResult]; omega
  | error => simp [nomToResult]
  | incomplete => simp [nomToResult]

/-- C87. `DidNotConsumeEverything(n)` says exactly: the input is a command line followed by `n` more bytes. -/
theorem c87_leftover (hL : IpLaws L) (b : Bytes) (n : Nat) :
    (Command.parse b : Except ParseErr (Command L)) = .error (.didNotConsumeEverything n) ↔
      ∃ line rest, b = line ++ rest ∧ rest.length = n ∧ 0 < n ∧ ∃ c : Command L, CmdLine L line c := by
  unfold Command.parse
  rw [nomToResult_more]
  constructor
  · rintro ⟨r, c, h, h1, h2⟩
    obtain ⟨x, rfl, hx⟩ := commandP_sound_rest h
    exact ⟨x, r, rfl, h1, h2, (cmdLine_iff_collect x).2 ⟨c, hx⟩⟩
  · rintro ⟨x, r, rfl, h1, h2, h3⟩
    obtain ⟨c, hc⟩ := (cmdLine_iff_collect x).1 h3
    exact ⟨r, c, commandP_complete_rest hL r hc, h1, h2⟩

/-- C87. Once the input holds a complete line, the first line alone decides, and the parser never asks for more: a
command, the number of bytes behind it, or `ParseError`. -/
theorem c87_terminated (hL : IpLaws L) (l rest : Bytes) (hl : NoCrlf l) :
    ((∃ c : Command L, CmdLine L (l ++ crlf) c) →
      (rest = [] ∧ ∃ c : Command L, Command.parse (l ++ crlf ++ rest) = .ok c) ∨
      (rest ≠ [] ∧ (Command.parse (l ++ crlf ++ rest) : Except ParseErr (Command L)) =
        .error (.didNotConsumeEverything rest.length))) ∧
    ((¬ ∃ c : Command L, CmdLine L (l ++ crlf) c) →
      (Command.parse (l ++ crlf ++ rest) : Except ParseErr (Command L)) = .error .parseError) := by
  rw [cmdLine_iff_collect]
  constructor
  · rintro ⟨c, hc⟩
    have k := commandP_complete_rest hL rest hc
    unfold Command.parse
    rw [k]
    cases rest with
    | nil => exact .inl ⟨rfl, c, rfl⟩
    | cons d t => exact .inr ⟨nofun, rfl⟩
  · intro hn
    unfold Command.parse
    cases h : (commandP (l ++ crlf ++ rest) : IRes (Command L)) with
    | error => rfl
    | incomplete => exact absurd h (settled_command hL _ ⟨l, rest, rfl⟩)
    | done r c =>
      obtain ⟨x, e, hx⟩ := commandP_sound_rest h
      obtain ⟨y, rfl, hy⟩ := collectLine_oneLine hL hx
      obtain ⟨rfl, rfl⟩ := firstCrlf_unique hl hy e
      exact absurd ⟨c, hx⟩ hn

/-- C87. On a line as `next_crlf_line` returns it, the answer is a command or `ParseError`. -/
theorem c87_line (hL : IpLaws L) (l : Bytes) (hl : NoCrlf l) :
    (∃ c : Command L, Command.parse (l ++ crlf) = .ok c) ∨
    (Command.parse (l ++ crlf) : Except ParseErr (Command L)) = .error .parseError := by
  have h := c87_terminated hL l [] hl
  simp only [List.append_nil] at h
  by_cases hc : ∃ c : Command L, CmdLine L (l ++ crlf) c
  · rcases h.1 hc with ⟨_, h⟩ | ⟨h, _⟩
    · exact .inl h
    · exact absurd rfl h
  · exact .inr (h.2 hc)

/-- C87. Without a complete line, there is no command, and nothing is left over. -/
theorem c87_unterminated (hL : IpLaws L) (b : Bytes) (hb : NoCrlf b) :
    (Command.parse b : Except ParseErr (Command L)) = .error .parseError ∨
    (Command.parse b : Except ParseErr (Command L)) = .error .incompleteString := by
  unfold Command.parse
  cases h : (commandP b : IRes (Command L)) with
  | error => exact .inl rfl
  | incomplete => exact .inr rfl
  | done r c =>
    obtain ⟨x, rfl, hx⟩ := commandP_sound_rest h
    obtain ⟨y, rfl, hy⟩ := collectLine_oneLine hL hx
    exact absurd hb not_noCrlf

/-- The error of a result (to compute with results whose values have no decidable equality). -/
def errorOf {α : Type} : Except ParseErr α → Option ParseErr
  | .ok _ => none
  | .error e => some e

theorem errorOf_some {α : Type} {x : Except ParseErr α} {e : ParseErr} (h : errorOf x = some e) : x = .error e := by
  cases x <;> cases h; rfl

theorem errorOf_none {α : Type} {x : Except ParseErr α} (h : errorOf x = none) : ∃ a, x = .ok a := by
  cases x with
  | ok a => exact ⟨a, rfl⟩
  | error e => cases h

/-- C87. But `ParseError` is final only for complete lines: here are inputs refused with `ParseError` that become commands
when more bytes arrive, although the parser has the answer "incomplete". -/
theorem c87_not_final :
    (∀ b ∈ [b!"EHLO [1", b!"MAIL FROM:<a@", b!"VRFY ab", b!"RCPT TO:a."],
      (Command.parse b : Except ParseErr (Command exampleIp)) = .error .parseError) ∧
    ∀ b ∈ [b!"EHLO [127.0.0.1]\r\n", b!"MAIL FROM:<a@b>\r\n", b!"VRFY ab\r\n", b!"RCPT TO:a.b\r\n"],
      ∃ c, (Command.parse b : Except ParseErr (Command exampleIp)) = .ok c := by
  refine ⟨fun b hb => errorOf_some ?_, fun b hb => errorOf_none ?_⟩
  · revert b; decide +kernel
  · revert b; decide +kernel

/-- C87, non-vacuity: the three errors occur. -/
example : (Command.parse b!"DATA\r\nhello" : Except ParseErr (Command exampleIp)) = .error (.didNotConsumeEverything 5) ∧
    (Command.parse b!"DATA x\r\nhello" : Except ParseErr (Command exampleIp)) = .error .parseError ∧
    (Command.parse b!"MAIL FROM:<a" : Except ParseErr (Command exampleIp)) = .error .incompleteString := by
  refine ⟨errorOf_some ?_, errorOf_some ?_, errorOf_some ?_⟩ <;> decide +kernel

/-! ### Replies -/

theorem code_field {a b c : UInt8} : CodeField [a, b, c] ↔ ∃ v, ReplyLine.u16FromStr [a, b, c] = some v ∧ v < 1000 := by
  constructor
  · rintro ⟨a', b', c', e, ha, hb, hc⟩
    simp at e
    obtain ⟨rfl, rfl, rfl⟩ := e
    have hb' := hb
    have hc' := hc
    simp only [IsDigit, UInt8.le_iff_toNat_le] at hb' hc'
    simp at hb' hc'
    rcases ha with ha | rfl
    · have ha' := ha
      simp only [IsDigit, UInt8.le_iff_toNat_le] at ha'
      simp at ha'
      have hlt : 100 * (a.toNat - 48) + 10 * (b.toNat - 48) + (c.toNat - 48) < 1000 := by omega
      refine ⟨(100 * (a.toNat - 48) + 10 * (b.toNat - 48) + (c.toNat - 48)).toUInt16, u16_three.2 (.inl ⟨a, b, c, rfl, ha, hb, hc, ?_⟩), ?_⟩
      · simp; omega
      · rw [UInt16.lt_iff_toNat_lt]
        show _ % 65536 < 1000
        rw [Nat.mod_eq_of_lt] <;> omega
    · have hlt : 10 * (b.toNat - 48) + (c.toNat - 48) < 1000 := by omega
      refine ⟨(10 * (b.toNat - 48) + (c.toNat - 48)).toUInt16, u16_three.2 (.inr ⟨rfl, hb, hc, ?_⟩), ?_⟩
      · simp; omega
      · rw [UInt16.lt_iff_toNat_lt]
        show _ % 65536 < 1000
        rw [Nat.mod_eq_of_lt] <;> omega
  · rintro ⟨v, h, _⟩
    rcases u16_three.1 h with ⟨a', b', c', e, ha, hb, hc, _⟩ | ⟨rfl, hb, hc, _⟩
    · simp at e
      obtain ⟨rfl, rfl, rfl⟩ := e
      exact ⟨a, b, c, rfl, .inl ha, hb, hc⟩
    · exact ⟨_, b, c, rfl, .inr rfl, hb, hc⟩

theorem replyParser_short (i : Bytes) (h : i.length < 3) : ReplyLine.parser i = .incomplete := by
  show Parser.bind (mapP (verify (mapRes (take 3) ReplyLine.u16FromStr) (fun x => decide (x < 1000))) ReplyCode.mk) _ i = _
  simp only [Parser.bind, mapP, verify, mapRes, take, if_pos h]

theorem replyParser_refused {a b c : UInt8} (i : Bytes) (h : ¬ CodeField [a, b, c]) :
    ReplyLine.parser (a :: b :: c :: i) = .error := by
  rw [code_field] at h
  show Parser.bind (mapP (verify (mapRes (take 3) ReplyLine.u16FromStr) (fun x => decide (x < 1000))) ReplyCode.mk) _ _ = _
  have h3 : ¬ (a :: b :: c :: i).length < 3 := by simp
  simp only [Parser.bind, mapP, verify, mapRes, take, if_neg h3]
  cases hu : ReplyLine.u16FromStr [a, b, c] with
  | none => simp [hu, Parser.fail]
  | some v =>
    have : ¬ v < 1000 := fun hv => h ⟨v, hu, hv⟩
    simp [hu, Parser.fail, Parser.pure, this]

theorem replyParser_code {a b c : UInt8} (i : Bytes) (h : CodeField [a, b, c]) :
    ∃ v, ReplyLine.u16FromStr [a, b, c] = some v ∧ v < 1000 ∧
    ReplyLine.parser (a :: b :: c :: i) = (do
      let isLast ← mapP (alt (tag b!"-") (tag b!" "))
        (fun b => if b.length = 1 ∧ b.head? = some 32 then IsLast.yes else IsLast.no)
      let line ← takeUntilAndConsume b!"\r\n"
      return ⟨⟨v⟩, isLast, line⟩ : Parser ReplyLine) i := by
  obtain ⟨v, hu, hv⟩ := code_field.1 h
  refine ⟨v, hu, hv, ?_⟩
  have h1 : mapP (verify (mapRes (take 3) ReplyLine.u16FromStr) (fun x => decide (x < 1000))) ReplyCode.mk (a :: b :: c :: i) =
      .done i ⟨v⟩ :=
    mapP_done.2 ⟨v, verify_done.2 ⟨mapRes_done.2 ⟨[a, b, c], take_done.2 ⟨rfl, rfl⟩, hu⟩, by simpa using hv⟩, rfl⟩
  exact bind_of_done h1

/-- The outcome of the reply parser, spelt out. -/
theorem replyParser_cases (i : Bytes) :
    (ReplyLine.parser i = .incomplete ↔
      i.length < 3 ∨ (CodeField i) ∨ ∃ d s t, CodeField d ∧ (s = 32 ∨ s = 45) ∧ t.length < 2 ∧ i = d ++ [s] ++ t) ∧
    ∀ r, (∃ l, ReplyLine.parser i = .done r l) ↔
      ∃ d s t, CodeField d ∧ (s = 32 ∨ s = 45) ∧ NoCrlf t ∧ i = d ++ [s] ++ t ++ crlf ++ r := by
  have shape : ∀ {d : Bytes} {s : UInt8} {t : Bytes} {a b c : UInt8} {j : Bytes}, CodeField d →
      a :: b :: c :: j = d ++ [s] ++ t → CodeField [a, b, c] ∧ j = s :: t := by
    rintro d s t a b c j ⟨a', b', c', rfl, h⟩ e
    simp at e
    obtain ⟨rfl, rfl, rfl, rfl⟩ := e
    exact ⟨⟨a, b, c, rfl, h⟩, rfl⟩
  have short : ∀ i : Bytes, i.length < 3 → (ReplyLine.parser i = .incomplete ↔
        i.length < 3 ∨ (CodeField i) ∨ ∃ d s t, CodeField d ∧ (s = 32 ∨ s = 45) ∧ t.length < 2 ∧ i = d ++ [s] ++ t) ∧
      ∀ r, (∃ l, ReplyLine.parser i = .done r l) ↔
        ∃ d s t, CodeField d ∧ (s = 32 ∨ s = 45) ∧ NoCrlf t ∧ i = d ++ [s] ++ t ++ crlf ++ r := by
    intro i hi
    rw [replyParser_short i hi]
    refine ⟨by simp [hi], fun r => ⟨by simp, ?_⟩⟩
    rintro ⟨d, s, t, ⟨_, _, _, rfl, _⟩, _, _, rfl⟩
    simp at hi
    omega
  match i with
  | [] => exact short _ (by simp)
  | [_] => exact short _ (by simp)
  | [_, _] => exact short _ (by simp)
  | a :: b :: c :: j =>
    by_cases hc : CodeField [a, b, c]
    · obtain ⟨v, _, _, e⟩ := replyParser_code j hc
      rw [e]
      cases j with
      | nil =>
        refine ⟨⟨fun _ => .inr (.inl hc), fun _ => rfl⟩, fun r => ⟨nofun, ?_⟩⟩
        rintro ⟨d, s, t, hd, _, _, e⟩
        have := (shape hd (by simpa using e)).2
        cases this
      | cons s t =>
        by_cases hs : s = 32 ∨ s = 45
        · have h1 : ∃ q, mapP (alt (tag b!"-") (tag b!" "))
              (fun b => if b.length = 1 ∧ b.head? = some 32 then IsLast.yes else IsLast.no) (s :: t) = .done t q := by
            rcases hs with rfl | rfl
            · exact ⟨_, mapP_done.2 ⟨b!" ", alt_done.2 (.inr ⟨by simp [tag, tagBy, compareBy], tag_done.2 ⟨rfl, rfl⟩⟩), rfl⟩⟩
            · exact ⟨_, mapP_done.2 ⟨b!"-", alt_done.2 (.inl (tag_done.2 ⟨rfl, rfl⟩)), rfl⟩⟩
          obtain ⟨q, h1⟩ := h1
          rw [bind_of_done h1]
          constructor
          · have h2 : (do let line ← takeUntilAndConsume b!"\r\n"; return ⟨⟨v⟩, q, line⟩ : Parser ReplyLine) t = .incomplete ↔
                takeUntilAndConsume b!"\r\n" t = .incomplete := by
              show Parser.bind _ _ t = _ ↔ _
              unfold Parser.bind
              cases takeUntilAndConsume b!"\r\n" t with
              | done r x => exact ⟨nofun, nofun⟩
              | error => simp
              | incomplete => simp
            rw [h2]
            have h3 : takeUntilAndConsume b!"\r\n" t = .incomplete ↔ t.length < 2 := by
              unfold takeUntilAndConsume
              split
              · rename_i h; simp at h; simp; omega
              · rename_i h
                simp at h
                split <;> simp <;> omega
            rw [h3]
            constructor
            · intro ht; exact .inr (.inr ⟨[a, b, c], s, t, hc, hs, ht, rfl⟩)
            · rintro (h | h | ⟨d, s', t', hd, _, ht, e⟩)
              · simp at h; omega
              · obtain ⟨_, _, _, e, _⟩ := h
                simp at e
              · have := (shape hd e).2
                cases this; exact ht
          · intro r
            constructor
            · rintro ⟨l, h⟩
              obtain ⟨r', x, h2, h3⟩ := bind_done.1 h
              cases h3
              obtain ⟨hx, rfl⟩ := takeUntilAndConsume_crlf.1 h2
              exact ⟨[a, b, c], s, x, hc, hs, hx, by simp⟩
            · rintro ⟨d, s', t', hd, _, ht, e⟩
              have := (shape (t := t' ++ crlf ++ r) hd (by simpa using e)).2
              simp at this
              obtain ⟨rfl, rfl⟩ := this
              exact ⟨_, bind_done.2 ⟨r, t', takeUntilAndConsume_crlf.2 ⟨ht, by simp⟩, rfl⟩⟩
        · simp only [not_or] at hs
          have h1 : mapP (alt (tag b!"-") (tag b!" "))
              (fun b => if b.length = 1 ∧ b.head? = some 32 then IsLast.yes else IsLast.no) (s :: t) = .error :=
            mapP_error.2 (alt_error.2 ⟨tag_head_ne hs.2, tag_head_ne hs.1⟩)
          rw [bind_of_error h1]
          refine ⟨⟨nofun, ?_⟩, fun r => ⟨by simp, ?_⟩⟩
          · rintro (h | ⟨_, _, _, e, _⟩ | ⟨d, s', t', hd, hs', _, e⟩)
            · simp at h; omega
            · simp at e
            · have := (shape hd e).2
              cases this
              rcases hs' with h | h
              · exact absurd h hs.1
              · exact absurd h hs.2
          · rintro ⟨d, s', t', hd, hs', _, e⟩
            have := (shape (t := t' ++ crlf ++ r) hd (by simpa using e)).2
            simp at this
            rcases hs' with h | h
            · exact absurd (this.1.trans h) hs.1
            · exact absurd (this.1.trans h) hs.2
    · rw [replyParser_refused j hc]
      refine ⟨⟨nofun, ?_⟩, fun r => ⟨by simp, ?_⟩⟩
      · rintro (h | h | ⟨d, s, t, hd, _, _, e⟩)
        · simp at h; omega
        · obtain ⟨_, _, _, e, h⟩ := h
          simp at e
          obtain ⟨rfl, rfl, rfl, rfl⟩ := e
          exact absurd ⟨_, _, _, rfl, h⟩ hc
        · exact absurd (shape hd e).1 hc
      · rintro ⟨d, s, t, hd, _, _, e⟩
        exact absurd (shape (t := t ++ crlf ++ r) hd (by simpa using e)).1 hc

/-- C87. `ReplyLine::parse` reports `DidNotConsumeEverything(n)` exactly when a reply line is followed by `n` more bytes. -/
theorem c87_reply_leftover (b : Bytes) (n : Nat) :
    ReplyLine.parse b = .error (.didNotConsumeEverything n) ↔
      ∃ line rest l, b = line ++ rest ∧ rest.length = n ∧ 0 < n ∧ ReplyLine.parse line = .ok l := by
  have hok : ∀ i, (∃ l, ReplyLine.parse i = .ok l) ↔ ∃ l, ReplyLine.parser i = .done [] l := by
    intro i; simp only [ReplyLine.parse, nomToResult_ok]
  unfold ReplyLine.parse at *
  rw [nomToResult_more]
  constructor
  · rintro ⟨r, l, h, h1, h2⟩
    obtain ⟨d, s, t, hd, hs, ht, e⟩ := ((replyParser_cases b).2 r).1 ⟨l, h⟩
    obtain ⟨l', h'⟩ := (hok (d ++ [s] ++ t ++ crlf)).2 (((replyParser_cases _).2 []).2 ⟨d, s, t, hd, hs, ht, by simp⟩)
    exact ⟨_, r, l', e, h1, h2, h'⟩
  · rintro ⟨x, r, l, rfl, h1, h2, h3⟩
    obtain ⟨d, s, t, hd, hs, ht, e⟩ := ((replyParser_cases x).2 []).1 ((hok x).1 ⟨l, h3⟩)
    obtain ⟨l', h'⟩ := ((replyParser_cases (x ++ r)).2 r).2 ⟨d, s, t, hd, hs, ht, by rw [e]; simp⟩
    exact ⟨r, l', h', h1, h2⟩

/-- C87. `ReplyLine::parse` asks for more only within the first five bytes: less than three bytes, a code alone, or a code, a
separator and at most one byte. Any longer input without CRLF is a `ParseError`, although it may be the beginning of a reply. -/
theorem c87_reply_incomplete (b : Bytes) :
    ReplyLine.parse b = .error .incompleteString ↔
      b.length < 3 ∨ CodeField b ∨ ∃ d s t, CodeField d ∧ (s = 32 ∨ s = 45) ∧ t.length < 2 ∧ b = d ++ [s] ++ t := by
  rw [← (replyParser_cases b).1]
  unfold ReplyLine.parse nomToResult
  cases ReplyLine.parser b with
  | done r a => cases r <;> simp
  | error => simp
  | incomplete => simp

/-- C87. All other inputs are refused for good. -/
theorem c87_reply_error (b : Bytes) :
    ReplyLine.parse b = .error .parseError ↔
      ¬ (b.length < 3 ∨ CodeField b ∨ ∃ d s t, CodeField d ∧ (s = 32 ∨ s = 45) ∧ (t.length < 2 ∨ ¬ NoCrlf t) ∧
        b = d ++ [s] ++ t) := by
  constructor
  · intro h hn
    have hi := c87_reply_incomplete b
    rw [h] at hi
    simp only [reduceCtorEq, Except.error.injEq, false_iff, not_or] at hi
    rcases hn with hn | hn | ⟨d, s, t, hd, hs, ht | ht, e⟩
    · exact hi.1 hn
    · exact hi.2.1 hn
    · exact hi.2.2 ⟨d, s, t, hd, hs, ht, e⟩
    · rcases crlf_split t with h1 | ⟨x, y, hx, rfl⟩
      · exact ht h1
      · obtain ⟨l, h2⟩ := ((replyParser_cases b).2 y).2 ⟨d, s, x, hd, hs, hx, by rw [e]; simp⟩
        unfold ReplyLine.parse nomToResult at h
        rw [h2] at h
        cases y <;> simp at h
  · intro hn
    simp only [not_or] at hn
    cases h : ReplyLine.parser b with
    | error => simp [ReplyLine.parse, h, nomToResult]
    | incomplete =>
      rcases (replyParser_cases b).1.1 h with h | h | ⟨d, s, t, hd, hs, ht, e⟩
      · exact absurd h hn.1
      · exact absurd h hn.2.1
      · exact absurd ⟨d, s, t, hd, hs, .inl ht, e⟩ hn.2.2
    | done r l =>
      obtain ⟨d, s, t, hd, hs, ht, e⟩ := ((replyParser_cases b).2 r).1 ⟨l, h⟩
      exact absurd ⟨d, s, t ++ crlf ++ r, hd, hs, .inr not_noCrlf, by rw [e]; simp⟩ hn.2.2

/-- C87, non-vacuity. -/
example : ReplyLine.parse b!"250 ok\r\n25" = .error (.didNotConsumeEverything 2) ∧
    ReplyLine.parse b!"250 o" = .error .incompleteString ∧ ReplyLine.parse b!"250 ok" = .error .parseError ∧
    ReplyLine.parse b!"\r\n" = .error .incompleteString := by
  refine ⟨errorOf_some ?_, errorOf_some ?_, errorOf_some ?_, errorOf_some ?_⟩ <;> decide +kernel

end Verif
