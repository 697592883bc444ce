import Verif.Proofs.Determinism
/-
Sessions end when their input ends, and stop at the first write that fails.
-/
namespace Verif
open Spec
namespace Server
variable {L : IpLib} {S U : Type}

/-- A family of programs, indexed by the number of rounds allowed, that ends when given enough. -/
def Settles {α : Type} (p : Nat → M L S U α) : Prop :=
  ∀ w, ∃ n0 R, R.1 ≠ .running ∧ ∀ n, n0 ≤ n → p n w = R

theorem Settles.bind {α β : Type} {p : Nat → M L S U α} {f : Nat → α → M L S U β} (h : Settles p)
    (hf : ∀ a, Settles (fun n => f n a)) : Settles (fun n => p n >>= f n) := by
  intro w
  obtain ⟨n0, ⟨r, v⟩, h1, h2⟩ := h w
  cases r with
  | ok a =>
    obtain ⟨n1, R, h3, h4⟩ := hf a v
    refine ⟨max n0 n1, R, h3, fun n hn => ?_⟩
    exact (SM.bind_ok (h2 n (by omega))).trans (h4 n (by omega))
  | err => exact ⟨n0, (.err, v), by simp, fun n hn => SM.bind_err (h2 n hn)⟩
  | panic p => exact ⟨n0, (.panic p, v), by simp, fun n hn => SM.bind_panic (h2 n hn)⟩
  | running => exact absurd rfl h1

theorem settles_const {α : Type} {p : M L S U α} (h : ∀ w, (p w).1 ≠ .running) : Settles (fun _ => p) :=
  fun w => ⟨0, p w, h w, fun _ _ => rfl⟩

theorem settles_get {α : Type} {p : Nat → World L S U → M L S U α} (h : ∀ w, Settles (fun n => p n w)) :
    Settles (fun n => SM.get >>= p n) := fun w => h w w

theorem settles_pure {α : Type} (a : α) : Settles (fun _ => (Pure.pure a : M L S U α)) := settles_const (by simp)
theorem settles_modify (f : World L S U → World L S U) : Settles (fun _ => SM.modify f) := settles_const (by simp)
theorem settles_emit (e : Ev L) : Settles (fun _ => (emit e : M L S U Unit)) := settles_const (by simp)
theorem settles_setMail (m : Option (MailMeta L)) : Settles (fun _ => (setMail m : M L S U Unit)) :=
  settles_const (by simp)

theorem settles_sendReply (r : Reply) : Settles (fun _ => (sendReply r : M L S U Unit)) := by
  apply settles_const
  intro w
  rcases sendReply_cases r w with ⟨wr, h1, h2, h3⟩ | ⟨wr, new, h1, h2, h3⟩ | ⟨wr, h1, h2⟩
  · rw [h2]; simp
  · rw [h1]; simp
  · rw [h2]; simp

theorem settles_sendCfg (f : S → Reply) : Settles (fun _ => (sendCfg f : M L S U Unit)) := by
  unfold sendCfg
  exact settles_get fun w => settles_sendReply _

variable {C : Config L S U}

theorem settles_callHandleMail (hR : ∀ s u m, Returns (C.handleMail s u m)) (m : MailMeta L) :
    Settles (fun n => callHandleMail C n m) := by
  intro w
  obtain ⟨n0, hn⟩ := hR w.cfg w.conn m w.reader
  have hm := fun n (h : n0 ≤ n) => runHandler_mono hn n h
  have e : ∀ n, n0 ≤ n → callHandleMail C n m w = callHandleMail C n0 m w := by
    intro n h
    unfold callHandleMail
    simp only [emit_bind, SM.get_bind]
    rw [hm n h]
  refine ⟨n0, callHandleMail C n0 m w, ?_, e⟩
  rcases callHandleMail_cases C n0 m w with ⟨h, h'⟩ | ⟨p, h, h'⟩ | ⟨d, s, u, x, h, hx, h'⟩ | ⟨d, s, u, x, h, hx, h'⟩
  · exact absurd h hn
  · rw [h']; simp
  · rw [h']; simp
  · rw [h']; simp

theorem settles_handleMailCmd (f : Option (Email L)) : Settles (fun _ => handleMailCmd C f) := by
  unfold handleMailCmd
  refine settles_get fun w => ?_
  split
  · exact settles_sendCfg _
  · refine Settles.bind ?_ fun _ => Settles.bind ?_ fun r => ?_
    · unfold callNewMail
      exact (settles_modify _).bind fun _ => settles_emit _
    · unfold callFilterFrom
      refine settles_get fun v => ?_
      rcases C.filterFrom v.cfg v.conn f with ⟨d, f', s', u'⟩
      exact (settles_modify _).bind fun _ => (settles_emit _).bind fun _ => settles_pure _
    · obtain ⟨d, f'⟩ := r
      cases d with
      | accept => exact (settles_sendCfg _).bind fun _ => settles_setMail _
      | reject r => exact settles_sendReply _

theorem settles_handleRcptCmd (t : Email L) : Settles (fun _ => handleRcptCmd C t) := by
  unfold handleRcptCmd
  refine settles_get fun w => ?_
  cases w.mail with
  | none => exact settles_sendCfg _
  | some m =>
    refine Settles.bind ?_ fun r => ?_
    · unfold callFilterTo
      refine settles_get fun v => ?_
      rcases C.filterTo v.cfg v.conn t m with ⟨d, t', m', s', u'⟩
      exact (settles_modify _).bind fun _ => (settles_emit _).bind fun _ => settles_pure _
    · obtain ⟨d, t', m'⟩ := r
      cases d with
      | accept => exact (settles_setMail _).bind fun _ => settles_sendCfg _
      | reject r => exact settles_sendReply _

theorem settles_handleDataCmd (hR : ∀ s u m, Returns (C.handleMail s u m)) :
    Settles (fun n => handleDataCmd C n) := by
  unfold handleDataCmd
  refine settles_get fun w => ?_
  cases w.mail with
  | none => exact settles_sendCfg _
  | some m =>
    refine (settles_setMail _).bind fun _ => ?_
    split
    · exact (settles_sendCfg _).bind fun _ => settles_setMail _
    · refine Settles.bind ?_ fun r => ?_
      · unfold callFilterData
        refine settles_get fun v => ?_
        rcases C.filterData v.cfg v.conn m with ⟨d, m', s', u'⟩
        exact (settles_modify _).bind fun _ => (settles_emit _).bind fun _ => settles_pure _
      · obtain ⟨d, m'⟩ := r
        cases d with
        | accept =>
          refine (settles_sendCfg _).bind fun _ => (settles_callHandleMail hR m').bind fun d => ?_
          cases d with
          | accept => exact settles_sendCfg _
          | reject r => exact settles_sendReply _
        | reject r => exact (settles_sendReply _).bind fun _ => settles_setMail _

theorem settles_handleLine (hR : ∀ s u m, Returns (C.handleMail s u m)) (l : Bytes) :
    Settles (fun n => handleLine C n l) := by
  unfold handleLine
  cases (Command.parse l : Except ParseErr (Command L)) with
  | error e => exact settles_sendCfg _
  | ok c =>
    cases c with
    | mail f p => exact settles_handleMailCmd f
    | rcpt t p => exact settles_handleRcptCmd t
    | data => exact settles_handleDataCmd hR
    | _ => exact settles_sendCfg _

theorem loop_settles (hR : ∀ s u m, Returns (C.handleMail s u m)) (k : Nat) (w : World L S U)
    (hk : w.reader.bytes.length ≤ k) :
    ∃ n0 R, R.1 ≠ .running ∧ ∀ fuel n, n0 ≤ fuel → n0 ≤ n → loop C fuel n w = R := by
  induction k using Nat.strongRecOn generalizing w with
  | ind k ih =>
    rcases nextLine_cases w with ⟨h, rd, h1, h2⟩ | ⟨l, t, rd, h1, h2, h3, h4⟩
    · refine ⟨1, (.ok (), { w with reader := rd }), by simp, ?_⟩
      intro fuel n _ hn
      obtain ⟨n, rfl⟩ : ∃ m, n = m + 1 := ⟨n - 1, by omega⟩
      unfold loop
      rw [SM.bind_ok h2]
      rfl
    · obtain ⟨n1, ⟨r, v⟩, h5, h6⟩ := settles_handleLine hR (l ++ crlf)
        { w with reader := rd, trace := w.trace ++ [.line (l ++ crlf)] }
      have step : ∀ fuel n, n1 ≤ fuel → 1 ≤ n → loop C fuel n w =
          match (⟨r, v⟩ : Res Unit × World L S U) with
          | (.ok _, v) => loop C fuel (n - 1) v
          | (.err, v) => (.err, v)
          | (.panic p, v) => (.panic p, v)
          | (.running, v) => (.running, v) := by
        intro fuel n hf hn
        obtain ⟨n, rfl⟩ : ∃ m, n = m + 1 := ⟨n - 1, by omega⟩
        rw [loop, SM.bind_ok h4]
        simp only [emit_bind]
        have := h6 fuel hf
        cases r with
        | ok a => rw [SM.bind_ok this]; rfl
        | err => rw [SM.bind_err this]
        | panic p => rw [SM.bind_panic this]
        | running => rw [SM.bind_running this]
      cases r with
      | ok a =>
        have hl := handleLine_out C n1 (l ++ crlf) { w with reader := rd, trace := w.trace ++ [.line (l ++ crlf)] }
        have h6' := h6 n1 (Nat.le_refl _)
        dsimp only at h6'
        rw [h6'] at hl
        dsimp only at hl
        have hlen : v.reader.bytes.length < k := by
          cases hl with
          | ok k1 k2 k3 =>
            have := (k2.suffix (fun _ _ _ _ _ _ _ _ h => handles_suffix h)).length_le
            rw [h2] at hk
            simp [h3] at this hk ⊢
            omega
          | cut k1 k2 k6 k3 k4 k5 => exact absurd rfl (k3.not_ok ())
        obtain ⟨n2, R, h7, h8⟩ := ih _ hlen v (Nat.le_refl _)
        refine ⟨max n1 n2 + 1, R, h7, ?_⟩
        intro fuel n hf hn
        rw [step fuel n (by omega) (by omega)]
        exact h8 fuel (n - 1) (by omega) (by omega)
      | err => exact ⟨n1 + 1, (.err, v), by simp, fun fuel n hf hn => step fuel n (by omega) (by omega)⟩
      | panic p => exact ⟨n1 + 1, (.panic p, v), by simp, fun fuel n hf hn => step fuel n (by omega) (by omega)⟩
      | running => exact absurd rfl h5

theorem session_settles (hR : ∀ s u m, Returns (C.handleMail s u m)) : Settles (fun n => session C n) := by
  unfold session
  refine (settles_sendCfg _).bind fun _ w => ?_
  obtain ⟨n0, R, h1, h2⟩ := loop_settles hR _ w (Nat.le_refl _)
  exact ⟨n0, R, h1, fun n hn => h2 n n hn hn⟩

/-! ### The writer -/

/-- The operations of the sink that were used up: all succeeded but the last one if the result is an error. -/
def Wrote {α : Type} (w : World L S U) (x : Res α × World L S U) : Prop :=
  (x.1 ≠ .err ∧ ∃ oks, w.writer.plan = oks ++ x.2.writer.plan ∧ ∀ o ∈ oks, o = .ok) ∨
  (x.1 = .err ∧ ∃ oks o, w.writer.plan = oks ++ o :: x.2.writer.plan ∧ (∀ o ∈ oks, o = .ok) ∧ o ≠ .ok)

/-- A program that stops at the first failing operation. -/
def Stops {α : Type} (p : M L S U α) : Prop := ∀ w, Wrote w (p w)

theorem wrote_refl {α : Type} {w w' : World L S U} {r : Res α} (hr : r ≠ .err) (h : w'.writer = w.writer) : Wrote w (r, w') :=
  .inl ⟨hr, [], by simp [h], by simp⟩

theorem Stops.bind {α β : Type} {p : M L S U α} {f : α → M L S U β} (h : Stops p) (hf : ∀ a, Stops (f a)) :
    Stops (p >>= f) := by
  intro w
  have h1 := h w
  rcases hp : p w with ⟨r, v⟩
  rw [hp] at h1
  cases r with
  | ok a =>
    rw [SM.bind_ok hp]
    have h2 := hf a v
    rcases h1 with ⟨_, oks, e1, e2⟩ | ⟨h, _⟩
    · dsimp only at e1
      rcases h2 with ⟨h3, oks2, e3, e4⟩ | ⟨h3, oks2, o, e3, e4, e5⟩
      · exact .inl ⟨h3, oks ++ oks2, by rw [e1, e3, List.append_assoc], by
          intro o ho; rcases List.mem_append.1 ho with ho | ho
          · exact e2 o ho
          · exact e4 o ho⟩
      · exact .inr ⟨h3, oks ++ oks2, o, by rw [e1, e3, List.append_assoc], by
          intro o ho; rcases List.mem_append.1 ho with ho | ho
          · exact e2 o ho
          · exact e4 o ho, e5⟩
    · simp at h
  | err =>
    rw [SM.bind_err hp]
    rcases h1 with ⟨h, _⟩ | ⟨_, h⟩
    · simp at h
    · exact .inr ⟨rfl, h⟩
  | panic e =>
    rw [SM.bind_panic hp]
    rcases h1 with ⟨_, h⟩ | ⟨h, _⟩
    · exact .inl ⟨by simp, h⟩
    · simp at h
  | running =>
    rw [SM.bind_running hp]
    rcases h1 with ⟨_, h⟩ | ⟨h, _⟩
    · exact .inl ⟨by simp, h⟩
    · simp at h

theorem stops_pure {α : Type} (a : α) : Stops (Pure.pure a : M L S U α) := fun _ => wrote_refl (by simp) rfl
theorem stops_panic {α : Type} (p : Panic) : Stops (SM.panic p : M L S U α) := fun _ => wrote_refl (by simp) rfl
theorem stops_running {α : Type} : Stops (SM.running : M L S U α) := fun _ => wrote_refl (by simp) rfl
theorem stops_get {α : Type} {p : World L S U → M L S U α} (h : ∀ w, Stops (p w)) : Stops (SM.get >>= p) :=
  fun w => h w w
theorem stops_modify {f : World L S U → World L S U} (h : ∀ w, (f w).writer = w.writer) : Stops (SM.modify f) :=
  fun w => wrote_refl (by simp) (h w)
theorem stops_emit (e : Ev L) : Stops (emit e : M L S U Unit) := stops_modify fun _ => rfl
theorem stops_setMail (m : Option (MailMeta L)) : Stops (setMail m : M L S U Unit) := stops_modify fun _ => rfl

theorem stops_flush : Stops (flush : M L S U Unit) := by
  intro w
  obtain ⟨rd, ⟨out, plan⟩, s, u, m, tr⟩ := w
  match plan with
  | [] => exact .inl ⟨by simp [flush], [], rfl, by simp⟩
  | .ok :: p => exact .inl ⟨by simp [flush], [.ok], rfl, by simp⟩
  | .errDropped :: p => exact .inr ⟨rfl, [], .errDropped, rfl, by simp, by simp⟩
  | .errAccepted :: p => exact .inr ⟨rfl, [], .errAccepted, rfl, by simp, by simp⟩

theorem stops_writeLine (l : ReplyLine) : Stops (writeLine l : M L S U Unit) := by
  intro w
  obtain ⟨rd, ⟨out, plan⟩, s, u, m, tr⟩ := w
  unfold writeLine
  split
  · exact wrote_refl (by simp) rfl
  · match plan with
    | [] => exact .inl ⟨by simp [BSink.send], [], rfl, by simp⟩
    | .ok :: p => exact .inl ⟨by simp [BSink.send], [.ok], rfl, by simp⟩
    | .errDropped :: p => exact .inr ⟨rfl, [], .errDropped, rfl, by simp, by simp⟩
    | .errAccepted :: p => exact .inr ⟨rfl, [], .errAccepted, rfl, by simp, by simp⟩

theorem stops_sendChunks (code : ReplyCode) (cs : List Bytes) : Stops (sendChunks code cs : M L S U Unit) := by
  induction cs with
  | nil => exact stops_flush
  | cons t ts ih =>
    unfold sendChunks
    cases ReplyLine.build code (if ts.isEmpty then .yes else .no) t with
    | error e => exact stops_panic _
    | ok l => exact (stops_writeLine l).bind fun _ => ih

theorem stops_sendReply (r : Reply) : Stops (sendReply r : M L S U Unit) := by
  unfold sendReply
  cases byteChunks r.2 ReplyLine.maxLen with
  | none => exact stops_panic _
  | some cs => exact (stops_sendChunks _ _).bind fun _ => stops_emit _

theorem stops_sendCfg (f : S → Reply) : Stops (sendCfg f : M L S U Unit) := by
  unfold sendCfg
  exact stops_get fun w => stops_sendReply _

theorem stops_nextLine : Stops (nextLine : M L S U (Option Bytes)) := by
  intro w
  rcases nextLine_cases w with ⟨h, rd, h1, h2⟩ | ⟨l, t, rd, h1, h2, h3, h4⟩
  · rw [h2]; exact wrote_refl (by simp) rfl
  · rw [h4]; exact wrote_refl (by simp) rfl

theorem stops_callHandleMail (fuel : Nat) (m : MailMeta L) : Stops (callHandleMail C fuel m) := by
  intro w
  rcases callHandleMail_cases C fuel m w with ⟨h, h'⟩ | ⟨p, h, h'⟩ | ⟨d, s, u, x, h, hx, h'⟩ | ⟨d, s, u, x, h, hx, h'⟩ <;>
    rw [h'] <;> exact wrote_refl (by simp) rfl

theorem stops_handleMailCmd (f : Option (Email L)) : Stops (handleMailCmd C f) := by
  unfold handleMailCmd
  refine stops_get fun w => ?_
  split
  · exact stops_sendCfg _
  · refine Stops.bind ?_ fun _ => Stops.bind ?_ fun r => ?_
    · unfold callNewMail
      refine Stops.bind (stops_modify fun _ => rfl) fun _ => stops_emit _
    · unfold callFilterFrom
      refine stops_get fun v => ?_
      rcases C.filterFrom v.cfg v.conn f with ⟨d, f', s', u'⟩
      refine Stops.bind (stops_modify fun _ => rfl) fun _ => (stops_emit _).bind fun _ => stops_pure _
    · obtain ⟨d, f'⟩ := r
      cases d with
      | accept => exact (stops_sendCfg _).bind fun _ => stops_setMail _
      | reject r => exact stops_sendReply _

theorem stops_handleRcptCmd (t : Email L) : Stops (handleRcptCmd C t) := by
  unfold handleRcptCmd
  refine stops_get fun w => ?_
  cases w.mail with
  | none => exact stops_sendCfg _
  | some m =>
    refine Stops.bind ?_ fun r => ?_
    · unfold callFilterTo
      refine stops_get fun v => ?_
      rcases C.filterTo v.cfg v.conn t m with ⟨d, t', m', s', u'⟩
      refine Stops.bind (stops_modify fun _ => rfl) fun _ => (stops_emit _).bind fun _ => stops_pure _
    · obtain ⟨d, t', m'⟩ := r
      cases d with
      | accept => exact (stops_setMail _).bind fun _ => stops_sendCfg _
      | reject r => exact stops_sendReply _

theorem stops_handleDataCmd (n : Nat) : Stops (handleDataCmd C n) := by
  unfold handleDataCmd
  refine stops_get fun w => ?_
  cases w.mail with
  | none => exact stops_sendCfg _
  | some m =>
    refine (stops_setMail _).bind fun _ => ?_
    split
    · exact (stops_sendCfg _).bind fun _ => stops_setMail _
    · refine Stops.bind ?_ fun r => ?_
      · unfold callFilterData
        refine stops_get fun v => ?_
        rcases C.filterData v.cfg v.conn m with ⟨d, m', s', u'⟩
        refine Stops.bind (stops_modify fun _ => rfl) fun _ => (stops_emit _).bind fun _ => stops_pure _
      · obtain ⟨d, m'⟩ := r
        cases d with
        | accept =>
          refine (stops_sendCfg _).bind fun _ => (stops_callHandleMail n m').bind fun d => ?_
          cases d with
          | accept => exact stops_sendCfg _
          | reject r => exact stops_sendReply _
        | reject r => exact (stops_sendReply _).bind fun _ => stops_setMail _

theorem stops_handleLine (n : Nat) (l : Bytes) : Stops (handleLine C n l) := by
  unfold handleLine
  cases (Command.parse l : Except ParseErr (Command L)) with
  | error e => exact stops_sendCfg _
  | ok c =>
    cases c with
    | mail f p => exact stops_handleMailCmd f
    | rcpt t p => exact stops_handleRcptCmd t
    | data => exact stops_handleDataCmd n
    | _ => exact stops_sendCfg _

theorem stops_loop (fuel n : Nat) : Stops (loop C fuel n) := by
  induction n with
  | zero => exact stops_running
  | succ n ih =>
    unfold loop
    refine stops_nextLine.bind fun r => ?_
    cases r with
    | none => exact stops_pure _
    | some l => exact (stops_emit _).bind fun _ => (stops_handleLine fuel l).bind fun _ => ih

theorem stops_session (n : Nat) : Stops (session C n) := by
  unfold session
  exact (stops_sendCfg _).bind fun _ => stops_loop n n

end Server
end Verif
