import Verif.Proofs.History
import Verif.Spec.PollEnd
/-
How often the ended connection is polled.
-/
namespace Verif
open Spec

theorem Prep.prepend_ends {α : Type} {p q : Prep α} {x : α} (h : p.prepend x = some q) : q.ends = p.ends := by
  unfold Prep.prepend at h
  split at h <;> simp at h
  rw [← h]

theorem nextCrlfLineLoop_ends (s : Prep Bytes) (buf : Bytes) (l : Option Bytes) (s' : Prep Bytes)
    (h : nextCrlfLineLoop s buf = .ok (l, s')) : s'.ends = s.ends + (if l = none then 1 else 0) := by
  fun_induction nextCrlfLineLoop s buf with
  | case1 s buf s1 hp ih => rw [ih h, Prep.pollNext_ends_pending hp]
  | case2 s buf pkt s1 hp pos hpos s2 hpre =>
    simp at h
    obtain ⟨rfl, rfl⟩ := h
    simp [Prep.prepend_ends hpre, Prep.pollNext_ends_some hp]
  | case3 s buf pkt s1 hp pos hpos hpre => simp at h
  | case4 s buf pkt s1 hp hpos ih => rw [ih h, Prep.pollNext_ends_some hp]
  | case5 s buf s1 hp s2 hpre =>
    simp at h
    obtain ⟨rfl, rfl⟩ := h
    simp [Prep.prepend_ends hpre, (Prep.pollNext_none hp).1]
  | case6 s buf s1 hp hpre => simp at h

theorem nextCrlfLine_ends {s s' : Prep Bytes} {l : Option Bytes} (h : nextCrlfLine s = .ok (l, s')) :
    s'.ends = s.ends + (if l = none then 1 else 0) := nextCrlfLineLoop_ends s [] l s' h

theorem complete_ends {d d' : DStream} {ok : Bool} (h : d.complete = .ok (ok, d')) : d'.source.ends = d.source.ends := by
  unfold DStream.complete at h
  split at h
  · simp at h; rw [← h.2]
  · split at h
    · simp at h
    · split at h
      · split at h
        · rename_i q hq
          simp at h
          rw [← h.2]
          exact Prep.prepend_ends hq
        · simp at h
      · simp at h; rw [← h.2]

open Classical in
theorem readAll_ends (s : Prep Bytes) :
    (DStream.new s).readAll.2.source.ends = s.ends + (if HasMarker s.bytes then 0 else 1) := by
  obtain ⟨taken, sp⟩ := readAll_spec (DStream.new s) (by simp [DStream.new, DState.Active]) (by simp [DStream.new, DStream.SlotFree])
  have hsrc : s.bytes = evBytes taken ++ (DStream.new s).readAll.2.source.bytes := by
    have := sp.src
    simp only [DStream.new] at this
    simp [Prep.bytes, this, DStream.new]
  rw [sp.ends]
  rcases sp.res with ⟨h1, h2⟩ | ⟨h1, h2, _, h4⟩
  · have hm : HasMarker s.bytes := by
      apply Classical.byContradiction
      intro hn
      have := h2 (DStream.new s).readAll.2.source.bytes
      simp only [DStream.new, List.nil_append] at this hsrc
      rw [← hsrc] at this
      rw [← decode_none_iff, this] at hn
      simp at hn
    rw [h1, if_pos hm, if_neg (by simp)]; rfl
  · have hm : ¬ HasMarker s.bytes := by
      rw [← decode_none_iff]
      have hb : (DStream.new s).readAll.2.source.bytes = [] := by simp [Prep.bytes, h2]
      rw [hsrc, hb, List.append_nil]
      simp only [DStream.new, List.nil_append] at h4
      rw [h4]
    rw [h1, if_neg hm, if_pos rfl]; rfl

namespace Server
variable {L : IpLib} {S U : Type}

open Classical in
theorem conforming_ends {act : List HObs → HAct S U} (hc : Conforming act) {fuel : Nat} {rd : Prep Bytes} {d s u x}
    (h : runHandler act fuel [] (DStream.new rd) = .returned d s u x) :
    x.source.ends = rd.ends + (if HasMarker rd.bytes then 0 else 1) := by
  obtain ⟨k, hist, h1, _, h3⟩ := reads_to_end hc.reads (DStream.new rd) [] (by simp [Reading])
  obtain ⟨ok, y, h4, h5, _⟩ := new_complete rd
  obtain ⟨d', s', u', h6⟩ := hc.returns hist ok h1
  have hrun : runHandler act (fuel + 2 + k) [] (DStream.new rd) = .returned d' s' u' y := by
    rw [h3]
    unfold runHandler
    rw [hc.completes hist h1]
    simp only [h4]
    unfold runHandler
    rw [h6]
  have h7 := runHandler_mono (by rw [h]; simp : runHandler act fuel [] (DStream.new rd) ≠ .running) (fuel + 2 + k) (by omega)
  rw [hrun, h] at h7
  simp at h7
  obtain ⟨_, _, _, rfl⟩ := h7
  rw [complete_ends h4, readAll_ends]

/-! ### What touches the reader -/

/-- A piece of a session that neither reads nor hands over a message. -/
def Quiet {α : Type} (p : M L S U α) : Prop :=
  ∀ w, (p w).2.reader = w.reader ∧ ∃ new, (p w).2.trace = w.trace ++ new ∧ ∀ d, Ev.handled d ∉ new

theorem Quiet.bind {α β : Type} {p : M L S U α} {f : α → M L S U β} (h : Quiet p) (hf : ∀ a, Quiet (f a)) :
    Quiet (p >>= f) := by
  intro w
  obtain ⟨h1, new, h2, h3⟩ := h w
  rcases hp : p w with ⟨r, w'⟩
  rw [hp] at h1 h2
  cases r with
  | ok a =>
    rw [SM.bind_ok hp]
    obtain ⟨k1, new', k2, k3⟩ := hf a w'
    refine ⟨k1.trans h1, new ++ new', by rw [k2, h2, List.append_assoc], fun d hd => ?_⟩
    rcases List.mem_append.1 hd with hd | hd
    · exact h3 d hd
    · exact k3 d hd
  | err => rw [SM.bind_err hp]; exact ⟨h1, new, h2, h3⟩
  | panic q => rw [SM.bind_panic hp]; exact ⟨h1, new, h2, h3⟩
  | running => rw [SM.bind_running hp]; exact ⟨h1, new, h2, h3⟩

theorem quiet_pure {α : Type} (a : α) : Quiet (Pure.pure a : M L S U α) := fun w => ⟨rfl, [], by simp, by simp⟩
theorem quiet_panic {α : Type} (p : Panic) : Quiet (SM.panic p : M L S U α) := fun w => ⟨rfl, [], by simp, by simp⟩
theorem quiet_get {α : Type} {p : World L S U → M L S U α} (h : ∀ w, Quiet (p w)) : Quiet (SM.get >>= p) := by
  intro w; rw [SM.get_bind]; exact h w w
theorem quiet_modify {f : World L S U → World L S U} (h : ∀ w, (f w).reader = w.reader ∧ (f w).trace = w.trace) :
    Quiet (SM.modify f) := fun w => ⟨(h w).1, [], by simp [(h w).2], by simp⟩
theorem quiet_emit {e : Ev L} (h : ∀ d, e ≠ .handled d) : Quiet (emit e : M L S U Unit) :=
  fun w => ⟨rfl, [e], rfl, fun d hd => by simp at hd; exact h d hd.symm⟩
theorem quiet_setMail (m : Option (MailMeta L)) : Quiet (setMail m : M L S U Unit) := quiet_modify fun _ => ⟨rfl, rfl⟩

theorem quiet_flush : Quiet (flush : M L S U Unit) := by
  intro w
  unfold flush
  split
  · exact ⟨rfl, [], by simp, by simp⟩
  · exact ⟨rfl, [], by simp, by simp⟩
  · exact ⟨rfl, [.writeError], by simp, by simp⟩

theorem quiet_writeLine (l : ReplyLine) : Quiet (writeLine l : M L S U Unit) := by
  intro w
  unfold writeLine
  split
  · exact ⟨rfl, [], by simp, by simp⟩
  · dsimp only
    split
    · exact ⟨rfl, [], by simp, by simp⟩
    · exact ⟨rfl, [.writeError], by simp, by simp⟩

theorem quiet_sendChunks (code : ReplyCode) (cs : List Bytes) : Quiet (sendChunks code cs : M L S U Unit) := by
  induction cs with
  | nil => exact quiet_flush
  | cons t ts ih =>
    unfold sendChunks
    cases ReplyLine.build code (if ts.isEmpty then .yes else .no) t with
    | error e => exact quiet_panic _
    | ok l => exact (quiet_writeLine l).bind fun _ => ih

theorem quiet_sendReply (r : Reply) : Quiet (sendReply r : M L S U Unit) := by
  unfold sendReply
  cases byteChunks r.2 ReplyLine.maxLen with
  | none => exact quiet_panic _
  | some cs => exact (quiet_sendChunks _ _).bind fun _ => quiet_emit (by simp)

theorem quiet_sendCfg (f : S → Reply) : Quiet (sendCfg f : M L S U Unit) := by
  unfold sendCfg
  exact quiet_get fun w => quiet_sendReply _

variable {C : Config L S U}

theorem quiet_handleMailCmd (f : Option (Email L)) : Quiet (handleMailCmd C f) := by
  unfold handleMailCmd
  refine quiet_get fun w => ?_
  split
  · exact quiet_sendCfg _
  · refine Quiet.bind ?_ fun _ => Quiet.bind ?_ fun r => ?_
    · unfold callNewMail
      exact (quiet_modify fun _ => ⟨rfl, rfl⟩).bind fun _ => quiet_emit (by simp)
    · unfold callFilterFrom
      refine quiet_get fun w => ?_
      exact Quiet.bind (quiet_modify fun _ => ⟨rfl, rfl⟩) fun _ => Quiet.bind (quiet_emit (by simp)) fun _ => quiet_pure _
    · obtain ⟨d, f'⟩ := r
      cases d with
      | accept => exact (quiet_sendCfg _).bind fun _ => quiet_setMail _
      | reject r => exact quiet_sendReply _

theorem quiet_handleRcptCmd (t : Email L) : Quiet (handleRcptCmd C t) := by
  unfold handleRcptCmd
  refine quiet_get fun w => ?_
  split
  · refine Quiet.bind ?_ fun r => ?_
    · unfold callFilterTo
      refine quiet_get fun w => ?_
      exact Quiet.bind (quiet_modify fun _ => ⟨rfl, rfl⟩) fun _ => Quiet.bind (quiet_emit (by simp)) fun _ => quiet_pure _
    · obtain ⟨d, t', m'⟩ := r
      cases d with
      | accept => exact (quiet_setMail _).bind fun _ => quiet_sendCfg _
      | reject r => exact quiet_sendReply _
  · exact quiet_sendCfg _

/-- What a piece of a session that at most hands over one message does to the reader. -/
def Touches (C : Config L S U) (fuel : Nat) (w w' : World L S U) : Prop :=
  ∃ new, w'.trace = w.trace ++ new ∧
    (((∀ d, Ev.handled d ∉ new) ∧ w'.reader = w.reader) ∨
     ∃ s u m d s' u' x, Ev.handled d ∈ new ∧
       runHandler (C.handleMail s u m) fuel [] (DStream.new w.reader) = .returned d s' u' x ∧ w'.reader = x.source)

theorem Quiet.touches {α : Type} {p : M L S U α} (h : Quiet p) (fuel : Nat) (w : World L S U) : Touches C fuel w (p w).2 := by
  obtain ⟨h1, new, h2, h3⟩ := h w
  exact ⟨new, h2, .inl ⟨h3, h1⟩⟩

theorem touches_after {α β : Type} {fuel : Nat} {p : M L S U α} {f : α → M L S U β} (h : Quiet p)
    (hf : ∀ a w, Touches C fuel w (f a w).2) (w : World L S U) : Touches C fuel w ((p >>= f) w).2 := by
  obtain ⟨h1, new, h2, h3⟩ := h w
  rcases hp : p w with ⟨r, w'⟩
  rw [hp] at h1 h2
  cases r with
  | ok a =>
    rw [SM.bind_ok hp]
    obtain ⟨new', k2, k3⟩ := hf a w'
    refine ⟨new ++ new', by rw [k2, h2, List.append_assoc], ?_⟩
    rcases k3 with ⟨a1, a2⟩ | ⟨s, u, m, d, s', u', x, a1, a2, a3⟩
    · refine .inl ⟨fun d hd => ?_, a2.trans h1⟩
      rcases List.mem_append.1 hd with hd | hd
      · exact h3 d hd
      · exact a1 d hd
    · exact .inr ⟨s, u, m, d, s', u', x, List.mem_append_right _ a1, h1 ▸ a2, a3⟩
  | err => rw [SM.bind_err hp]; exact ⟨new, h2, .inl ⟨h3, h1⟩⟩
  | panic q => rw [SM.bind_panic hp]; exact ⟨new, h2, .inl ⟨h3, h1⟩⟩
  | running => rw [SM.bind_running hp]; exact ⟨new, h2, .inl ⟨h3, h1⟩⟩

theorem touches_before {α β : Type} {fuel : Nat} {p : M L S U α} {f : α → M L S U β} {w : World L S U}
    (h : Touches C fuel w (p w).2) (hf : ∀ a, Quiet (f a)) : Touches C fuel w ((p >>= f) w).2 := by
  rcases hp : p w with ⟨r, w'⟩
  rw [hp] at h
  cases r with
  | ok a =>
    rw [SM.bind_ok hp]
    obtain ⟨new, h2, h3⟩ := h
    obtain ⟨k1, new', k2, k3⟩ := hf a w'
    refine ⟨new ++ new', by rw [k2, h2, List.append_assoc], ?_⟩
    rcases h3 with ⟨a1, a2⟩ | ⟨s, u, m, d, s', u', x, a1, a2, a3⟩
    · refine .inl ⟨fun d hd => ?_, k1.trans a2⟩
      rcases List.mem_append.1 hd with hd | hd
      · exact a1 d hd
      · exact k3 d hd
    · exact .inr ⟨s, u, m, d, s', u', x, List.mem_append_left _ a1, a2, k1.trans a3⟩
  | err => rw [SM.bind_err hp]; exact h
  | panic q => rw [SM.bind_panic hp]; exact h
  | running => rw [SM.bind_running hp]; exact h

theorem touches_callHandleMail (fuel : Nat) (m : MailMeta L) (w : World L S U) :
    Touches C fuel w (callHandleMail C fuel m w).2 := by
  rcases callHandleMail_cases C fuel m w with ⟨_, h⟩ | ⟨p, _, h⟩ | ⟨d, s, u, x, _, _, h⟩ | ⟨d, s, u, x, h1, _, h⟩ <;> rw [h]
  · exact ⟨[.handleMail m], rfl, .inl ⟨by simp, rfl⟩⟩
  · exact ⟨[.handleMail m], rfl, .inl ⟨by simp, rfl⟩⟩
  · exact ⟨[.handleMail m], rfl, .inl ⟨by simp, rfl⟩⟩
  · exact ⟨[.handleMail m, .handled d], by simp, .inr ⟨_, _, m, d, s, u, x, by simp, h1, rfl⟩⟩

theorem touches_handleDataCmd (fuel : Nat) (w : World L S U) : Touches C fuel w (handleDataCmd C fuel w).2 := by
  unfold handleDataCmd
  rw [SM.get_bind]
  cases w.mail with
  | some m =>
    refine touches_after (quiet_setMail _) (fun _ w => ?_) w
    by_cases hm : m.to.isEmpty
    · simp only [hm, if_true]
      exact Quiet.touches (Quiet.bind (quiet_sendCfg _) fun _ => quiet_setMail _) fuel w
    · simp only [hm, Bool.false_eq_true, if_false]
      refine touches_after ?_ (fun r w => ?_) w
      · unfold callFilterData
        refine quiet_get fun w => ?_
        exact Quiet.bind (quiet_modify fun _ => ⟨rfl, rfl⟩) fun _ => Quiet.bind (quiet_emit (by simp)) fun _ => quiet_pure _
      · obtain ⟨d, m'⟩ := r
        cases d with
        | accept =>
          refine touches_after (quiet_sendCfg _) (fun _ w => ?_) w
          refine touches_before (touches_callHandleMail fuel m' w) fun d => ?_
          cases d with
          | accept => exact quiet_sendCfg _
          | reject r => exact quiet_sendReply _
        | reject r => exact Quiet.touches (Quiet.bind (quiet_sendReply _) fun _ => quiet_setMail _) fuel w
  | none => exact Quiet.touches (quiet_sendCfg _) fuel w

theorem touches_handleLine (fuel : Nat) (l : Bytes) (w : World L S U) : Touches C fuel w (handleLine C fuel l w).2 := by
  unfold handleLine
  cases (Command.parse l : Except ParseErr (Command L)) with
  | error e => exact Quiet.touches (quiet_sendCfg _) fuel w
  | ok c =>
    cases c with
    | mail f p => exact Quiet.touches (quiet_handleMailCmd f) fuel w
    | rcpt t p => exact Quiet.touches (quiet_handleRcptCmd t) fuel w
    | data => exact touches_handleDataCmd fuel w
    | _ => exact Quiet.touches (quiet_sendCfg _) fuel w

/-! ### The session -/

theorem _root_.Verif.Spec.Exchange.byMarker {V : Verdict L S U} {cmd st b evs st' b'}
    (h : Exchange C (ByText V) cmd st b evs st' b') :
    ((∀ d, Ev.handled d ∉ evs) → b' = b ∧ ∀ H, Exchange C H cmd st b evs st' b') ∧
    (HasMarker b → Exchange C (OnlyComplete V) cmd st b evs st' b') ∧
    ((∃ d, Ev.handled d ∈ evs) → ¬ HasMarker b → b' = [] ∧ (∃ m, Ev.handleMail m ∈ evs) ∧
      Exchange C (CutOff V) cmd st b evs st' b') := by
  cases h with
  | unrecognized => exact ⟨fun _ => ⟨rfl, fun _ => .unrecognized⟩, fun _ => .unrecognized, by simp⟩
  | unimplemented h => exact ⟨fun _ => ⟨rfl, fun _ => .unimplemented h⟩, fun _ => .unimplemented h, by simp⟩
  | mailAgain => exact ⟨fun _ => ⟨rfl, fun _ => .mailAgain⟩, fun _ => .mailAgain, by simp⟩
  | mailAccepted h => exact ⟨fun _ => ⟨rfl, fun _ => .mailAccepted h⟩, fun _ => .mailAccepted h, by simp⟩
  | mailRefused h => exact ⟨fun _ => ⟨rfl, fun _ => .mailRefused h⟩, fun _ => .mailRefused h, by simp⟩
  | rcptEarly => exact ⟨fun _ => ⟨rfl, fun _ => .rcptEarly⟩, fun _ => .rcptEarly, by simp⟩
  | rcptAccepted h => exact ⟨fun _ => ⟨rfl, fun _ => .rcptAccepted h⟩, fun _ => .rcptAccepted h, by simp⟩
  | rcptRefused h => exact ⟨fun _ => ⟨rfl, fun _ => .rcptRefused h⟩, fun _ => .rcptRefused h, by simp⟩
  | dataEarly => exact ⟨fun _ => ⟨rfl, fun _ => .dataEarly⟩, fun _ => .dataEarly, by simp⟩
  | dataNoRcpt => exact ⟨fun _ => ⟨rfl, fun _ => .dataNoRcpt⟩, fun _ => .dataNoRcpt, by simp⟩
  | dataRefused h h' => exact ⟨fun _ => ⟨rfl, fun _ => .dataRefused h h'⟩, fun _ => .dataRefused h h', by simp⟩
  | @dataHandled s u m _ m' s' u' d s'' u'' _ h h' h3 =>
    refine ⟨fun hn => absurd (by simp) (hn d), fun hm => ?_, fun _ hm => ?_⟩
    · rcases h3 with h3 | ⟨ls, part, hu, _, _⟩
      · exact .dataHandled h h' h3
      · have := (decode_none_iff b).1 (by rw [decode_unfinished hu])
        exact absurd hm this
    · rcases h3 with ⟨ls, h3, _⟩ | h3
      · exact absurd ((c01_marker_iff _).2 ⟨ls, _, h3⟩) hm
      · have hb : b' = [] := by obtain ⟨_, _, _, hb, _⟩ := h3; exact hb
        exact ⟨hb, ⟨m', by simp⟩, .dataHandled h h' h3⟩

/-- How the number of polls of the ended connection goes with the way a session went. -/
inductive EndsOut (C : Config L S U) (V : Verdict L S U) (w : World L S U) : Res Unit → World L S U → Prop
  | between {w' evs} : w'.reader.ends = w.reader.ends + 1 → w'.trace = w.trace ++ evs →
      Dialogue C (OnlyComplete V) w.st w.reader.bytes evs w'.st w'.reader.bytes → NoCrlf w'.reader.bytes →
      EndsOut C V w (.ok ()) w'
  | inside {w' evs st l t evs' m d} : w'.reader.ends = w.reader.ends + 2 → NoCrlf l →
      w'.trace = w.trace ++ evs ++ .line (l ++ crlf) :: evs' →
      Dialogue C (OnlyComplete V) w.st w.reader.bytes evs st (l ++ crlf ++ t) →
      Exchange C (CutOff V) (commandOn (l ++ crlf)) st t evs' w'.st [] → Ev.handleMail m ∈ evs' → Ev.handled d ∈ evs' →
      EndsOut C V w (.ok ()) w'
  | stopped {r w'} : r ≠ .ok () → w'.reader.ends ≤ w.reader.ends + 1 → EndsOut C V w r w'

theorem endsOut_loop {V : Verdict L S U} (hV : ∀ s u m, WholeMessage (C.handleMail s u m) (V s u m)) (fuel n : Nat)
    (w : World L S U) : EndsOut C V w (loop C fuel n w).1 (loop C fuel n w).2 := by
  induction n generalizing w with
  | zero => exact .stopped (by simp [loop]) (by simp [loop])
  | succ n ih =>
    unfold loop
    rcases nextLine_cases w with ⟨h, rd, h1, h2⟩ | ⟨l, t, rd, h1, h2, h3, h4⟩
    · have he : rd.ends = w.reader.ends + 1 := by
        unfold nextLine at h2
        split at h2
        · simp at h2
        · rename_i l' r hr
          simp at h2
          obtain ⟨hl', rfl⟩ := h2
          simpa [hl'] using nextCrlfLine_ends hr
      rw [SM.bind_ok h2]
      refine .between (evs := []) he (by simp) ?_ (by simpa [h1] using h)
      simp only [SM.pure_eq, h1]
      exact .nil
    · have he : rd.ends = w.reader.ends := by
        unfold nextLine at h4
        split at h4
        · simp at h4
        · rename_i l' r hr
          simp at h4
          obtain ⟨hl', rfl⟩ := h4
          simpa [hl'] using nextCrlfLine_ends hr
      rw [SM.bind_ok h4]
      simp only [emit_bind]
      have hl := handleLine_out C fuel (l ++ crlf) { w with reader := rd, trace := w.trace ++ [.line (l ++ crlf)] }
      have ht := touches_handleLine (C := C) fuel (l ++ crlf) { w with reader := rd, trace := w.trace ++ [.line (l ++ crlf)] }
      rcases hg : handleLine C fuel (l ++ crlf) { w with reader := rd, trace := w.trace ++ [.line (l ++ crlf)] } with ⟨r, w1⟩
      rw [hg] at hl ht
      dsimp only at hl ht
      have hends : w1.reader.ends ≤ w.reader.ends + 1 := by
        obtain ⟨new, _, h | ⟨s, u, m, d, s', u', x, _, hr, hx⟩⟩ := ht
        · rw [h.2]; simp [he]
        · rw [hx, conforming_ends (hV s u m).conforming hr]
          dsimp only
          split <;> omega
      have stop : r ≠ .ok () → EndsOut C V w r w1 := fun h => .stopped h hends
      cases r with
      | err => rw [SM.bind_err hg]; exact stop (by simp)
      | panic p => rw [SM.bind_panic hg]; exact stop (by simp)
      | running => rw [SM.bind_running hg]; exact stop (by simp)
      | ok a =>
        rw [SM.bind_ok hg]
        cases hl with
        | cut _ _ _ hc => exact absurd rfl (hc.not_ok ())
        | @ok _ evs k1 k2 k3 =>
          have k2 := k2.mono (H' := ByText V) fun _ _ _ _ _ _ _ _ h => handles_byText hV h
          obtain ⟨m1, m2, m3⟩ := k2.byMarker
          obtain ⟨new, t1, t2⟩ := ht
          obtain rfl : evs = new := by
            rw [k1] at t1
            exact List.append_cancel_left t1
          have hst : World.st { w with reader := rd, trace := w.trace ++ [.line (l ++ crlf)] } = w.st := rfl
          rw [hst] at m1 m2 m3
          dsimp only at m1 m2 m3 t2 k1
          rw [h3] at m1 m2 m3
          -- the line and its exchange, all messages complete so far
          have go : w1.reader.ends = w.reader.ends →
              Exchange C (OnlyComplete V) (commandOn (l ++ crlf)) w.st t evs w1.st w1.reader.bytes →
              EndsOut C V w (loop C fuel n w1).1 (loop C fuel n w1).2 := by
            intro e1 e2
            have ih := ih w1
            revert ih
            generalize loop C fuel n w1 = res
            obtain ⟨r, w2⟩ := res
            intro ih
            cases ih with
            | between a1 a2 a3 a4 =>
              refine .between (by rw [a1, e1]) (evs := _) ?_ (h2 ▸ Dialogue.cons h1 e2 a3) a4
              rw [a2, k1]; simp
            | inside a1 a2 a3 a4 a5 a6 a7 =>
              refine .inside (by rw [a1, e1]) a2 ?_ (h2 ▸ Dialogue.cons h1 e2 a4) a5 a6 a7
              rw [a3, k1]; simp
            | stopped a1 a2 => exact .stopped a1 (by rw [← e1]; exact a2)
          rcases t2 with ⟨q1, q2⟩ | ⟨s, u, m, d, s', u', x, q1, q2, q3⟩
          · exact go (by rw [q2, he]) ((m1 q1).2 _)
          · have hx := conforming_ends (hV s u m).conforming q2
            rw [← q3, h3, he] at hx
            by_cases hm : HasMarker t
            · exact go (by rw [hx, if_pos hm]; rfl) (m2 hm)
            · obtain ⟨c1, ⟨m', c2⟩, c3⟩ := m3 ⟨d, q1⟩ hm
              rw [if_neg hm] at hx
              cases n with
              | zero => exact .stopped (by simp [loop]) (by simp [loop, hx])
              | succ n =>
                unfold loop
                rcases nextLine_cases w1 with ⟨h, rd', j1, j2⟩ | ⟨l', t', rd', j1, j2, j3, j4⟩
                · have he' : rd'.ends = w1.reader.ends + 1 := by
                    unfold nextLine at j2
                    split at j2
                    · simp at j2
                    · rename_i l' r hr
                      simp at j2
                      obtain ⟨hl', rfl⟩ := j2
                      simpa [hl'] using nextCrlfLine_ends hr
                  rw [SM.bind_ok j2]
                  rw [c1] at c3
                  refine .inside (evs := []) (by simp [he', hx]) h1 ?_ (h2 ▸ .nil) c3 c2 q1
                  simp [k1]
                · rw [c1] at j2; simp [crlf] at j2

end Server
end Verif
