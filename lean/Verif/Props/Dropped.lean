import Verif.Spec.Dropped
import Verif.Props.Await
/-
C111: what is in the mailbox when a session is dropped in the middle of a callback, or a callback panics.
-/
namespace Verif
open Spec Task Server
variable {L : IpLib} {S U : Type}

/-- The same handler, but returning what it has seen. -/
private def seen (act : List HObs → HAct S U) (h : List HObs) : HAct (List HObs) Unit :=
  match act h with
  | .poll => .poll
  | .complete => .complete
  | .done _ _ _ => .done .accept h ()

private theorem reaches_seen {act : List HObs → HAct S U} {rd : Prep Bytes} {h : List HObs} {d : DStream} (k : Reaches act rd h d) :
    Reaches (seen act) rd h d := by
  induction k with
  | new => exact .new
  | poll _ ha ih => exact ih.poll (by simp [seen, ha])
  | complete _ ha hc ih => exact ih.complete (by simp [seen, ha]) hc

/-- A handler that has read to the end and completed has seen the whole message. -/
theorem reaches_whole {act : List HObs → HAct S U} {v} (hv : WholeMessage act v) {rd : Prep Bytes} {h : List HObs} {d : DStream}
    {ok : Bool} (h1 : Reading h) (h2 : Reaches act rd (h ++ [.polled (.ready none)] ++ [.completed ok]) d) :
    (∃ ls b', IsMessage rd.bytes ls b' ∧ ok = true ∧ textOf h = decodedLines ls) ∨
      ∃ ls part, IsUnfinished rd.bytes ls part ∧ ok = false ∧ textOf h = decodedLines ls ++ decodedPart part := by
  have hd : ∀ h ok, Reading h → seen act (h ++ [.polled (.ready none)] ++ [.completed ok]) =
      .done .accept (h ++ [.polled (.ready none)] ++ [.completed ok]) () := by
    intro h ok hh
    have := hv.returns h ok hh
    simp only [seen, this]
  have r1 := (reaches_seen h2).run 1
  conv at r1 => rhs; unfold runHandler; rw [hd h ok h1]
  obtain ⟨k, h', h3, h4, h5⟩ := reads_to_end (act := seen act) (fun h hh => by simp [seen, hv.reads h hh]) (DStream.new rd) []
    (by simp [Reading])
  obtain ⟨ok', x, h6, _, h7⟩ := new_complete rd
  have r2 := h5 2
  conv at r2 =>
    rhs; unfold runHandler
    rw [show seen act (h' ++ [.polled (.ready none)]) = .complete by simp [seen, hv.completes h' h3]]
    simp only [h6]
    unfold runHandler
    rw [hd h' ok' h3]
  have e1 := runHandler_mono (by rw [r1]; simp) (m := (h ++ [HObs.polled (.ready none)] ++ [HObs.completed ok]).length + 1 + (2 + k)) (by omega)
  have e2 := runHandler_mono (by rw [r2]; simp) (m := (h ++ [HObs.polled (.ready none)] ++ [HObs.completed ok]).length + 1 + (2 + k)) (by omega)
  rw [e1, r1, r2] at e2
  simp only [HRes.returned.injEq, List.append_assoc, List.singleton_append] at e2
  have e3 := List.append_inj' e2.2.1 rfl
  obtain ⟨rfl, e4⟩ := e3
  simp only [List.cons.injEq, HObs.completed.injEq, and_true, true_and] at e4
  subst e4
  simp only [textOf, List.nil_append] at h4
  rw [h4]
  rcases h7 with ⟨ls, a, rfl, b⟩ | ⟨ls, part, a, a', rfl, b⟩
  · exact .inl ⟨ls, _, a, rfl, b⟩
  · exact .inr ⟨ls, part, a, rfl, b⟩

/-- C111. A session is dropped at any of its `.await`s, in the middle of a callback too, or the callback it waits for panics. The
mailbox then holds what it held and mails that were received, in order: all those accepted, among them all those whose acceptance
the client was told, and at most one of which the client was not told; that one was given to the handler last, and nothing has
happened since but the handler's acceptance and the error of a writer that would not take the reply. -/
theorem c111_left (C : Config L S U) (V : Verdict L S U) (box : S → List (Stored L))
    (hV : ∀ s u m, WholeMessage (C.handleMail s u m) (V s u m)) (hb : Keeps C V box)
    (incoming : List (SrcEv Bytes)) (outgoing : BSink) (s : S) (u : U) (n : Nat) (s' : S)
    (h : LeftBehind V box (after C incoming outgoing s u n) s') :
    ∃ stored, box s' = box s ++ stored ∧ Sent L (evBytes incoming) stored ∧
      acceptedMails (after C incoming outgoing s u n).2.trace <+: stored.map (·.1) ∧
      (stored.map (·.1) = acknowledgedMails (after C incoming outgoing s u n).2.trace ∨
        ∃ m evs e, stored.map (·.1) = acknowledgedMails (after C incoming outgoing s u n).2.trace ++ [m] ∧
          (after C incoming outgoing s u n).2.trace = evs ++ [.handleMail m] ++ e ∧
          (e = [] ∨ e = [.handled .accept] ∨ e = [.handled .accept, .writeError])) := by
  cases h with
  | untouched h =>
    obtain ⟨stored, h1, h2, h3, h4⟩ := c103_mailbox C V box hV hb incoming outgoing s u n
    refine ⟨stored, by rw [h, h1], h3, by rw [h2]; exact List.prefix_refl _, ?_⟩
    rcases h4 with h4 | ⟨m, evs, e, h4, h5, h6⟩
    · exact .inl h4
    · refine .inr ⟨m, evs, .handled .accept :: e, h4, by rw [h5]; simp, .inr ?_⟩
      rcases h6 with rfl | rfl
      · exact .inl rfl
      · exact .inr rfl
  | @stored act hh ok d evs m s'' u'' h1 h2 h3 h4 h5 =>
    have hat := at_after (fun _ _ _ _ _ _ _ _ _ h => handles_byText hV h) incoming outgoing s u n
    generalize after C incoming outgoing s u n = x at h1 h3 h4 h5 hat ⊢
    obtain ⟨pc, w⟩ := x
    simp only at h1 h3 h4 h5
    subst h1
    rcases hat with ⟨st, l, t, cur, ⟨g1, evs', g2, g3⟩, s1, u1, m1, m', rd, k1, rfl, k3, k4, k5, rfl, rfl, k8, k9⟩ | ⟨left, h, _⟩
    · rw [k8] at k9
      have hm : m = m' := by
        have := h3.symm.trans g3
        have e : (Ev.reply (C.welcomeBanner s) :: evs' ++ .line (l ++ crlf) ::
            [Ev.filterData m1 m' .accept, .reply (C.dataOkay w.cfg), .handleMail m']) =
            (Ev.reply (C.welcomeBanner s) :: evs' ++ [.line (l ++ crlf), .filterData m1 m' .accept, .reply (C.dataOkay w.cfg)]) ++
              [.handleMail m'] := by simp
        rw [e] at this
        have := (List.append_inj' this rfl).2
        simpa using this
      subst hm
      obtain ⟨new, a1, a2, a3, a4⟩ := dialogue_keeps hb g2
      simp only at a1
      have hbd := hb.data s1 u1 m1
      rw [k4] at hbd
      simp only at hbd
      refine ⟨new ++ [(m, textOf hh, ok)], by rw [h5, hbd, a1, List.append_assoc], ?_, ?_, .inr ⟨m, evs, [], ?_, by simp [h3], .inl rfl⟩⟩
      · refine a4 _ ?_
        rcases reaches_whole (hV _ _ _) h2 k9 with ⟨ls, b', i1, rfl, i3⟩ | ⟨ls, part, i1, rfl, i3⟩
        · rw [i3]
          exact .complete (before := []) rfl (.inl rfl) k1 i1 .nil
        · rw [i3]
          exact .unfinished (before := []) rfl (.inl rfl) k1 i1
      · show acceptedMails w.trace <+: _
        rw [g3, List.cons_append, acceptedMails, accepted_append (by simp), a2]
        · simp [acceptedMails]
        · intro m evs he; cases he
      · show _ = acknowledgedMails w.trace ++ _
        rw [g3, List.cons_append, acknowledgedMails, acknowledged_append (by simp) (by simp), a3]
        · simp [acknowledgedMails]
        · intro m r evs he; cases he
    · cases h

/-- C111. What was in the mailbox at an earlier `.await` is still there. -/
theorem c111_kept (C : Config L S U) (V : Verdict L S U) (box : S → List (Stored L))
    (hV : ∀ s u m, WholeMessage (C.handleMail s u m) (V s u m)) (hb : Keeps C V box)
    (incoming : List (SrcEv Bytes)) (outgoing : BSink) (s : S) (u : U) (n k : Nat) (s' : S)
    (h : LeftBehind V box (after C incoming outgoing s u (n + k)) s') :
    box (after C incoming outgoing s u n).2.cfg <+: box s' := by
  have h1 := c103_kept C V box hV hb incoming outgoing s u n k
  cases h with
  | untouched h => rwa [h]
  | stored _ _ _ _ h => rw [h]; exact h1.trans (List.prefix_append _ _)

/-! ### A session -/

/-- What the handler has seen, if one is at work. -/
private def handling (x : Task.State L S U) : Option (List HObs) :=
  match x.1 with | .handle _ h _ => some h | _ => none

private theorem handling_eq {x : Task.State L S U} {h : List HObs} (k : handling x = some h) : ∃ act d, x.1 = .handle act h d := by
  obtain ⟨pc, w⟩ := x
  cases pc <;> simp_all [handling]

private def isHandle : Option (Ev L) → Bool
  | some (.handleMail _) => true
  | _ => false

/-- C111: in the session of `c103_example`, after 18 answers, the handler has not returned, and the mail can be in the mailbox. -/
theorem c111_example : ∃ s', LeftBehind (testVerdict exampleIp) testBox
      (after (testConfig exampleIp) [.pkt oneMail] ⟨[], []⟩ [] () 18) s' ∧ (testBox s').map (·.2) = [(b!"hi\r\n", true)] ∧
    acceptedMails (after (testConfig exampleIp) [.pkt oneMail] ⟨[], []⟩ [] () 18).2.trace = [] := by
  have h1 : handling (after (testConfig exampleIp) [.pkt oneMail] ⟨[], []⟩ [] () 18) =
      some ([.polled (.ready (some b!"hi\r\n"))] ++ [.polled (.ready none)] ++ [.completed true]) := by decide +kernel
  obtain ⟨act, d, h1⟩ := handling_eq h1
  have h2 : ∃ evs m, (after (testConfig exampleIp) [.pkt oneMail] ⟨[], []⟩ [] () 18).2.trace = evs ++ [.handleMail m] := by
    have h : ∃ m, (after (testConfig exampleIp) [.pkt oneMail] ⟨[], []⟩ [] () 18).2.trace.getLast? = some (.handleMail m) := by
      have : isHandle (after (testConfig exampleIp) [.pkt oneMail] ⟨[], []⟩ [] () 18).2.trace.getLast? = true := by decide +kernel
      generalize (after (testConfig exampleIp) [.pkt oneMail] ⟨[], []⟩ [] () 18).2.trace.getLast? = e at this
      match e, this with | some (.handleMail m), _ => exact ⟨m, rfl⟩
    obtain ⟨m, h⟩ := h
    obtain ⟨evs, h⟩ := List.getLast?_eq_some_iff.1 h
    exact ⟨evs, m, h⟩
  obtain ⟨evs, m, h2⟩ := h2
  have h3 : (after (testConfig exampleIp) [.pkt oneMail] ⟨[], []⟩ [] () 18).2.cfg = [] := by decide +kernel
  refine ⟨[(m.from_, m.to, b!"hi\r\n")], .stored h1 (by simp [Reading]) h2 (s'' := [(m.from_, m.to, b!"hi\r\n")]) (u'' := ()) ?_ ?_,
    rfl, by decide +kernel⟩
  · rw [h3]; simp [testVerdict, textOf]; decide
  · rw [h3]; rfl

end Verif
