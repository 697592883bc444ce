import Verif.Model.Write
import Verif.Model.Server
/-
C83: what `send_to` leaves on a writer that takes little at a time, is interrupted, or fails.
-/
namespace Verif
variable {σ : Type} (W : IoWriter σ)

theorem writeOnce_wrote {w w' : WState σ} {buf : Bytes} {n : Nat} (h : writeOnce W w buf = (.wrote n, w')) :
    n ≤ buf.length ∧ w'.out = w.out ++ buf.take n := by
  unfold writeOnce at h
  split at h
  · rename_i m s hm
    simp at h
    obtain ⟨rfl, rfl⟩ := h
    exact ⟨W.le _ _ _ _ hm, rfl⟩
  · rename_i a s hne hm
    simp at h
    exact (hne n (h.1)).elim

theorem writeOnce_else {w w' : WState σ} {buf : Bytes} {a : WAns} (h : writeOnce W w buf = (a, w'))
    (ha : ∀ n, a ≠ .wrote n) : w'.out = w.out := by
  unfold writeOnce at h
  split at h
  · simp at h; exact absurd h.1.symm (ha _)
  · simp at h; rw [← h.2]

/-- What a sequence of writes of `m` in all has left. -/
def Wrote (w w' : WState σ) (r : WRes) (m : Bytes) : Prop :=
  ∃ acc rest, w'.out = w.out ++ acc ∧ m = acc ++ rest ∧ (r = .ok ↔ rest = [])

theorem writeAll_wrote (fuel : Nat) (w : WState σ) (buf : Bytes) :
    Wrote w (writeAll W fuel w buf).2 (writeAll W fuel w buf).1 buf := by
  induction fuel generalizing w buf with
  | zero =>
    cases buf with
    | nil => exact ⟨[], [], by simp [writeAll], rfl, by simp [writeAll]⟩
    | cons c t => exact ⟨[], c :: t, by simp [writeAll], rfl, by simp [writeAll]⟩
  | succ fuel ih =>
    cases buf with
    | nil => exact ⟨[], [], by simp [writeAll], rfl, by simp [writeAll]⟩
    | cons c t =>
      rw [writeAll]
      · split
        · rename_i w' h
          have := (writeOnce_wrote W h).2
          exact ⟨[], c :: t, by simpa using this, rfl, by simp⟩
        · rename_i n w' hn h
          obtain ⟨h1, h2⟩ := writeOnce_wrote W h
          obtain ⟨acc, rest, e1, e2, e3⟩ := ih w' ((c :: t).drop n)
          refine ⟨(c :: t).take n ++ acc, rest, by rw [e1, h2]; simp, ?_, e3⟩
          rw [List.append_assoc, ← e2, List.take_append_drop]
        · rename_i w' h
          have := writeOnce_else W h (by simp)
          obtain ⟨acc, rest, e1, e2, e3⟩ := ih w' (c :: t)
          exact ⟨acc, rest, by rw [e1, this], e2, e3⟩
        · rename_i w' h
          have := writeOnce_else W h (by simp)
          exact ⟨[], c :: t, by simpa using this, rfl, by simp⟩
      · simp

theorem writePieces_wrote (fuel : Nat) (w : WState σ) (ps : List Bytes) :
    ∃ acc, (writePieces W fuel w ps).2.out = w.out ++ acc ∧ acc <+: ps.flatten ∧
      ((writePieces W fuel w ps).1 = .ok ↔ acc = ps.flatten) := by
  induction ps generalizing w with
  | nil => exact ⟨[], by simp [writePieces], by simp, by simp [writePieces]⟩
  | cons p ps ih =>
    rw [writePieces]
    obtain ⟨acc, rest, e1, e2, e3⟩ := writeAll_wrote W fuel w p
    split
    · rename_i w' h
      rw [h] at e1 e3
      simp only [true_iff] at e3
      subst e3
      obtain ⟨acc', f1, f2, f3⟩ := ih w'
      simp at e2
      subst e2
      refine ⟨p ++ acc', by rw [f1, e1]; simp, ?_, ?_⟩
      · simpa using f2
      · simpa using f3
    · rename_i r hr
      have hne : (writeAll W fuel w p).1 ≠ .ok := by
        intro h
        exact hr _ (Prod.ext h rfl)
      have hrest : rest ≠ [] := fun h => hne (e3.2 h)
      refine ⟨acc, e1, ?_, ?_⟩
      · exact ⟨rest ++ ps.flatten, by simp [e2]⟩
      · refine ⟨fun h => absurd h hne, fun h => ?_⟩
        have := congrArg List.length h
        simp [e2] at this
        exact absurd (by simpa using this.1) hrest

variable {L : IpLib} (F : Cutter)

theorem Domain.pieces_flatten (d : Domain L) : (d.pieces F).flatten = d.sendTo := by
  cases d <;> simp [Domain.pieces, Domain.sendTo, F.flatten]

theorem Email.pieces_flatten (e : Email L) : (e.pieces F).flatten = e.sendTo := by
  obtain ⟨l, h⟩ := e
  cases h <;> simp [Email.pieces, Email.sendTo, Domain.pieces_flatten]

theorem Params.pieces_flatten (m : Params) : m.pieces.flatten = m.sendTo := by
  induction m with
  | nil => rfl
  | cons e m ih =>
    obtain ⟨k, v⟩ := e
    simp only [Params.pieces, Params.sendTo, List.flatMap_cons, List.flatten_append] at ih ⊢
    rw [ih]
    cases v <;> simp

theorem Command.pieces_flatten (c : Command L) : (c.pieces F).flatten = c.sendTo := by
  cases c with
  | mail f p => cases f <;> simp [Command.pieces, Command.sendTo, optEmailPieces, optEmailSendTo, Email.pieces_flatten, Params.pieces_flatten]
  | _ => simp [Command.pieces, Command.sendTo, Domain.pieces_flatten, Email.pieces_flatten, Params.pieces_flatten]

theorem ReplyLine.pieces_flatten (r : ReplyLine) : r.pieces.flatten = r.sendTo := by
  simp [ReplyLine.pieces, ReplyLine.sendTo]

/-- C83. Sending a command to any writer, however it cuts, interrupts and fails: what the writer has taken is a prefix of
the command's wire form, and `send_to` returns `Ok` exactly when it has taken all of it. -/
theorem c83_command (fuel : Nat) (w : WState σ) (c : Command L) :
    ∃ acc, (writePieces W fuel w (c.pieces F)).2.out = w.out ++ acc ∧ acc <+: c.sendTo ∧
      ((writePieces W fuel w (c.pieces F)).1 = .ok ↔ acc = c.sendTo) := by
  have := writePieces_wrote W fuel w (c.pieces F)
  rwa [Command.pieces_flatten] at this

/-- C83, for reply lines. -/
theorem c83_reply (fuel : Nat) (w : WState σ) (r : ReplyLine) :
    ∃ acc, (writePieces W fuel w r.pieces).2.out = w.out ++ acc ∧ acc <+: r.sendTo ∧
      ((writePieces W fuel w r.pieces).1 = .ok ↔ acc = r.sendTo) := by
  have := writePieces_wrote W fuel w r.pieces
  rwa [ReplyLine.pieces_flatten] at this

/-- C83, for addresses. -/
theorem c83_email (fuel : Nat) (w : WState σ) (e : Email L) :
    ∃ acc, (writePieces W fuel w (e.pieces F)).2.out = w.out ++ acc ∧ acc <+: e.sendTo ∧
      ((writePieces W fuel w (e.pieces F)).1 = .ok ↔ acc = e.sendTo) := by
  have := writePieces_wrote W fuel w (e.pieces F)
  rwa [Email.pieces_flatten] at this

/-- C83, for domains. -/
theorem c83_domain (fuel : Nat) (w : WState σ) (d : Domain L) :
    ∃ acc, (writePieces W fuel w (d.pieces F)).2.out = w.out ++ acc ∧ acc <+: d.sendTo ∧
      ((writePieces W fuel w (d.pieces F)).1 = .ok ↔ acc = d.sendTo) := by
  have := writePieces_wrote W fuel w (d.pieces F)
  rwa [Domain.pieces_flatten] at this

/-- A writer that is never interrupted for ever: `n s` bounds the interruptions from state `s` on. -/
def Patient (n : σ → Nat) : Prop :=
  ∀ s b a s', W.write s b = (a, s') → n s' ≤ n s ∧ (a = .interrupted → n s' < n s)

theorem writeAll_ends {n : σ → Nat} (hp : Patient W n) (fuel : Nat) (w : WState σ) (buf : Bytes)
    (h : buf.length + n w.st ≤ fuel) :
    (writeAll W fuel w buf).1 ≠ .running ∧ n (writeAll W fuel w buf).2.st ≤ n w.st := by
  induction fuel generalizing w buf with
  | zero =>
    cases buf with
    | nil => simp [writeAll]
    | cons c t => simp at h
  | succ fuel ih =>
    cases buf with
    | nil => simp [writeAll]
    | cons c t =>
      have step : ∀ a w', writeOnce W w (c :: t) = (a, w') → n w'.st ≤ n w.st ∧ (a = .interrupted → n w'.st < n w.st) := by
        intro a w' hw
        unfold writeOnce at hw
        split at hw
        · rename_i m s hm
          simp at hw
          obtain ⟨rfl, rfl⟩ := hw
          exact hp _ _ _ _ hm
        · rename_i b s _ hm
          simp at hw
          obtain ⟨rfl, rfl⟩ := hw
          exact hp _ _ _ _ hm
      rw [writeAll]
      · split
        · rename_i w' hw; exact ⟨by simp, (step _ _ hw).1⟩
        · rename_i k w' hk hw
          have h1 := (step _ _ hw).1
          have := ih w' ((c :: t).drop k) (by
            have : k ≠ 0 := hk
            simp at h ⊢; omega)
          exact ⟨this.1, Nat.le_trans this.2 h1⟩
        · rename_i w' hw
          have h1 := (step _ _ hw).2 rfl
          have := ih w' (c :: t) (by omega)
          exact ⟨this.1, by omega⟩
        · rename_i w' hw; exact ⟨by simp, (step _ _ hw).1⟩
      · simp

/-- C83 (end). Unless the writer is interrupted for ever, `send_to` returns. -/
theorem c83_returns {n : σ → Nat} (hp : Patient W n) (w : WState σ) (c : Command L) :
    ∃ fuel, (writePieces W fuel w (c.pieces F)).1 ≠ .running := by
  have : ∀ (ps : List Bytes) (fuel : Nat) (w : WState σ), ps.flatten.length + n w.st ≤ fuel →
      (writePieces W fuel w ps).1 ≠ .running := by
    intro ps
    induction ps with
    | nil => intros; simp [writePieces]
    | cons p ps ih =>
      intro fuel w h
      simp only [List.flatten_cons, List.length_append] at h
      have h1 := writeAll_ends W hp fuel w p (by omega)
      rw [writePieces]
      split
      · rename_i w' hw
        rw [hw] at h1
        exact ih fuel w' (by simp at h1; omega)
      · exact h1.1
  exact ⟨_, this _ _ w (Nat.le_refl _)⟩

/-! ### The two writers the code uses -/

theorem vec_writeAll (fuel : Nat) (w : WState Bytes) (b : Bytes) (h : 0 < fuel) :
    writeAll vecWriter fuel w b = (.ok, if b = [] then w else ⟨w.st ++ b, w.out ++ b⟩) := by
  obtain ⟨fuel, rfl⟩ : ∃ k, fuel = k + 1 := ⟨fuel - 1, by omega⟩
  cases b with
  | nil => simp [writeAll]
  | cons c t =>
    rw [writeAll]
    · simp [writeOnce, vecWriter, writeAll]
    · simp

/-- C83 (`SmtpString::from_sendable`). It never fails, and the string is the wire form. -/
theorem c83_from_sendable (fuel : Nat) (hf : 0 < fuel) (c : Command L) (e : Email L) (d : Domain L) :
    fromSendable fuel (c.pieces F) = some c.sendTo ∧ fromSendable fuel (e.pieces F) = some e.sendTo ∧
      fromSendable fuel (d.pieces F) = some d.sendTo := by
  have : ∀ (ps : List Bytes) (w : WState Bytes), ∃ w', writePieces vecWriter fuel w ps = (.ok, w') ∧ w'.st = w.st ++ ps.flatten := by
    intro ps
    induction ps with
    | nil => intro w; exact ⟨w, rfl, by simp⟩
    | cons p ps ih =>
      intro w
      rw [writePieces, vec_writeAll fuel w p hf]
      obtain ⟨w', h1, h2⟩ := ih (if p = [] then w else ⟨w.st ++ p, w.out ++ p⟩)
      refine ⟨w', h1, ?_⟩
      rw [h2]
      split <;> simp_all
  refine ⟨?_, ?_, ?_⟩ <;> unfold fromSendable
  · obtain ⟨w', h1, h2⟩ := this (c.pieces F) ⟨[], []⟩
    rw [h1]; simpa [Command.pieces_flatten] using h2
  · obtain ⟨w', h1, h2⟩ := this (e.pieces F) ⟨[], []⟩
    rw [h1]; simpa [Email.pieces_flatten] using h2
  · obtain ⟨w', h1, h2⟩ := this (d.pieces F) ⟨[], []⟩
    rw [h1]; simpa [Domain.pieces_flatten] using h2

theorem cap_writeAll (cap fuel : Nat) (w : WState Bytes) (b : Bytes) (hf : b.length ≤ fuel) (hw : w.st.length ≤ cap) :
    ∃ w', writeAll (capWriter cap) fuel w b = (if w.st.length + b.length ≤ cap then .ok else .err, w') ∧
      w'.st = w.st ++ b.take (cap - w.st.length) := by
  cases b with
  | nil => exact ⟨w, by simp [writeAll, hw], by simp⟩
  | cons c t =>
    obtain ⟨fuel, rfl⟩ : ∃ k, fuel = k + 1 := ⟨fuel - 1, by simp at hf; omega⟩
    rw [writeAll]
    · simp only [writeOnce, capWriter]
      by_cases h0 : min (cap - w.st.length) (c :: t).length = 0
      · have : cap - w.st.length = 0 := by simp at h0; omega
        simp only [h0]
        refine ⟨⟨w.st ++ (c :: t).take (cap - w.st.length), w.out ++ (c :: t).take 0⟩, ?_, rfl⟩
        rw [if_neg (by simp; omega)]
      · split
        · rename_i w' h; simp at h; omega
        · rename_i n w' hn h
          simp only [Prod.mk.injEq, WAns.wrote.injEq] at h
          obtain ⟨rfl, rfl⟩ := h
          by_cases hle : w.st.length + (c :: t).length ≤ cap
          · have e : min (cap - w.st.length) (c :: t).length = (c :: t).length := by omega
            rw [e, List.drop_length, if_pos hle]
            cases fuel <;> exact ⟨_, by rw [writeAll], rfl⟩
          · have e : min (cap - w.st.length) (c :: t).length = cap - w.st.length := by omega
            rw [e, if_neg hle]
            obtain ⟨x, r, hx⟩ : ∃ x r, (c :: t).drop (cap - w.st.length) = x :: r := by
              cases hd : (c :: t).drop (cap - w.st.length) with
              | nil => rw [List.drop_eq_nil_iff] at hd; omega
              | cons x r => exact ⟨x, r, rfl⟩
            have hlen : (w.st ++ (c :: t).take (cap - w.st.length)).length = cap := by
              simp only [List.length_append, List.length_take]; omega
            have hx' := congrArg List.length hx
            obtain ⟨fuel, rfl⟩ : ∃ k, fuel = k + 1 := ⟨fuel - 1, by simp at hf hx' h0 hle; omega⟩
            rw [hx]
            refine ⟨⟨w.st ++ (c :: t).take (cap - w.st.length), w.out ++ (c :: t).take (cap - w.st.length)⟩, ?_, rfl⟩
            rw [writeAll]
            · simp only [writeOnce, hlen]
              simp
            · simp
        · rename_i w' h; simp at h
        · rename_i w' h; simp at h
    · simp

/-- A buffer of capacity `cap` takes the first `cap` bytes; the write is `Ok` exactly if all fit. -/
theorem cap_writePieces (cap fuel : Nat) (ps : List Bytes) (w : WState Bytes) (hf : ps.flatten.length ≤ fuel)
    (hw : w.st.length ≤ cap) :
    ∃ w', writePieces (capWriter cap) fuel w ps = (if w.st.length + ps.flatten.length ≤ cap then .ok else .err, w') ∧
      w'.st = w.st ++ ps.flatten.take (cap - w.st.length) := by
  induction ps generalizing w with
  | nil => exact ⟨w, by simp [writePieces, hw], by simp⟩
  | cons p ps ih =>
    simp only [List.flatten_cons, List.length_append] at hf
    obtain ⟨w', h1, h2⟩ := cap_writeAll cap fuel w p (by omega) hw
    rw [writePieces, h1]
    by_cases h : w.st.length + p.length ≤ cap
    · have e : p.take (cap - w.st.length) = p := List.take_of_length_le (by omega)
      rw [e] at h2
      have hl : w'.st.length = w.st.length + p.length := by rw [h2]; simp
      obtain ⟨w'', g1, g2⟩ := ih w' (by omega) (by omega)
      refine ⟨w'', ?_, ?_⟩
      · simp only [if_pos h, g1, List.flatten_cons, List.length_append, hl, Nat.add_assoc]
      · rw [g2, h2]
        simp only [List.flatten_cons, List.append_assoc, List.length_append]
        congr 1
        rw [List.take_append, e]
        congr 2
        omega
    · refine ⟨w', ?_, ?_⟩
      · simp only [if_neg h, List.flatten_cons, List.length_append]
        rw [if_neg (by omega)]
      · rw [h2]
        simp only [List.flatten_cons]
        rw [List.take_append_of_le_length (by omega)]

/-- C83 (the buffer of `interact`). Writing a reply line into `BytesMut::with_capacity(byte_len()).writer()` succeeds and
leaves exactly the line there, so the `unwrap` of interact.rs:36 does not panic; with one byte less it would. -/
theorem c83_server_buffer (r : ReplyLine) :
    (∃ w, writePieces (capWriter r.byteLen) r.byteLen ⟨[], []⟩ r.pieces = (.ok, w) ∧ w.st = r.sendTo) ∧
    ∀ cap, cap < r.byteLen → ∃ w, writePieces (capWriter cap) r.byteLen ⟨[], []⟩ r.pieces = (.err, w) := by
  have hl : r.pieces.flatten.length = r.byteLen := by
    rw [ReplyLine.pieces_flatten]
    simp only [ReplyLine.sendTo, ReplyLine.byteLen]
    split <;> simp <;> omega
  constructor
  · obtain ⟨w, h1, h2⟩ := cap_writePieces r.byteLen r.byteLen r.pieces ⟨[], []⟩ (by omega) (by simp)
    refine ⟨w, ?_, ?_⟩
    · rw [h1]; simp [hl]
    · rw [h2, ← ReplyLine.pieces_flatten]
      simp only [List.nil_append, List.length_nil, Nat.sub_zero, ← hl, List.take_length]
  · intro cap hc
    obtain ⟨w, h1, _⟩ := cap_writePieces cap r.byteLen r.pieces ⟨[], []⟩ (by omega) (by simp)
    refine ⟨w, ?_⟩
    rw [h1, if_neg (by rw [hl]; simp; omega)]

/-- The model of the server (`Server.writeLine`) panics exactly when this write fails. -/
theorem c83_server_model {L : IpLib} {S U : Type} (r : ReplyLine) (w : World L S U) :
    ((Server.writeLine r w).1 = .panic .writeUnwrap ↔
      ∃ b, writePieces (capWriter r.byteLen) r.byteLen ⟨[], []⟩ r.pieces = (.err, b)) := by
  have hl : r.byteLen = r.sendTo.length := by
    simp only [ReplyLine.sendTo, ReplyLine.byteLen]
    split <;> simp <;> omega
  obtain ⟨⟨b, h, _⟩, _⟩ := c83_server_buffer r
  constructor
  · intro h'
    unfold Server.writeLine at h'
    rw [if_neg (by omega)] at h'
    revert h'
    simp only
    split <;> simp
  · rintro ⟨b', h'⟩
    rw [h] at h'; simp at h'

/-! ### Concrete cases -/

/-- A writer that takes two bytes at a time, is interrupted now and then, and fails after `limit` calls. -/
private def slow (limit : Nat) : IoWriter Nat where
  write n b := if limit ≤ n then (.failed, n + 1) else if n % 3 = 2 then (.interrupted, n + 1) else (.wrote (min 2 b.length), n + 1)
  le := by
    intro s b n s' h
    split at h
    · simp at h
    · split at h
      · simp at h
      · simp at h; omega

private def exReply : ReplyLine := ⟨⟨250⟩, .yes, b!"Okay"⟩

example : (writePieces (slow 100) 20 ⟨0, []⟩ exReply.pieces).1 = .ok := by decide
example : (writePieces (slow 100) 20 ⟨0, []⟩ exReply.pieces).2.out = b!"250 Okay\r\n" := by decide
example : (writePieces (slow 4) 20 ⟨0, []⟩ exReply.pieces).1 = .err := by decide
example : (writePieces (slow 4) 20 ⟨0, []⟩ exReply.pieces).2.out = b!"250 " := by decide
/-- It is patient in the sense of `c83_returns`. -/
example : Patient (slow 9) (fun s => 9 - s) := by
  intro s b a s' h
  simp only [slow] at h
  split at h
  · simp at h; obtain ⟨rfl, rfl⟩ := h; simp; omega
  · split at h
    · simp at h; obtain ⟨rfl, rfl⟩ := h; simp; omega
    · simp at h; obtain ⟨rfl, rfl⟩ := h; simp; omega

end Verif
