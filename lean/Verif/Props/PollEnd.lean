import Verif.Proofs.PollEnd
import Verif.Props.Compose
import Verif.Props.Lockstep
/-
C91: polling the connection after it has ended.
-/
namespace Verif
open Spec Server
variable {L : IpLib} {S U : Type}

/-- C91. `next_crlf_line` polls the ended connection exactly once if it returns no line, and not at all if it returns one. -/
theorem c91_next_line (s s' : Prep Bytes) (l : Option Bytes) (h : nextCrlfLine s = .ok (l, s')) :
    s'.ends = s.ends + (if l = none then 1 else 0) := nextCrlfLine_ends h

open Classical in
/-- C91. Reading a message to its end and completing it polls the ended connection exactly once if the message is cut off, and
not at all if it is complete. -/
theorem c91_message (s : Prep Bytes) (ok : Bool) (d : DStream) (h : (DStream.new s).readAll.2.complete = .ok (ok, d)) :
    d.source.ends = s.ends + (if HasMarker s.bytes then 0 else 1) := by
  rw [complete_ends h, readAll_ends]

theorem exchange_exclusive {C : Config L S U} {V : Verdict L S U} {cmd : Option (Command L)} {st st1 st2 : SState L S U}
    {t b1 b2 : Bytes} {e1 e2 : List (Ev L)} {d : Decision} (h1 : Exchange C (OnlyComplete V) cmd st t e1 st1 b1)
    (h2 : Exchange C (CutOff V) cmd st t e2 st2 b2) (hd : Ev.handled d ∈ e2) : False := by
  cases h2 <;> simp at hd
  rename_i a1 a2 a3
  obtain ⟨ls, part, hu, _⟩ := a3
  have hn := (decode_none_iff t).1 (by rw [decode_unfinished hu])
  cases h1 with
  | unimplemented h => exact h trivial
  | dataNoRcpt => simp at a1
  | dataRefused b1 b2 => rw [a2] at b2; simp at b2
  | dataHandled b1 b2 b3 =>
    obtain ⟨ls, hm, _⟩ := b3
    exact hn ((c01_marker_iff _).2 ⟨ls, _, hm⟩)

/-- A session that ends normally has sent its banner. -/
theorem after_banner {C : Config L S U} {fuel : Nat} {incoming : List (SrcEv Bytes)} {outgoing : BSink} {s : S} {u : U}
    {w : World L S U} (h : interact C fuel incoming outgoing s u = (.ok (), w)) :
    ∃ w0 : World L S U, w0.reader = Prep.new incoming ∧ w0.trace = [.reply (C.welcomeBanner s)] ∧ w0.st = ⟨s, u, none⟩ ∧
      loop C fuel fuel w0 = (.ok (), w) := by
  unfold interact session at h
  simp only [sendCfg, SM.bind_assoc', SM.get_bind] at h
  rcases sendReply_cases (C.welcomeBanner (start (L := L) incoming outgoing s u).cfg) (start incoming outgoing s u)
    with ⟨wr, h1, h2, h3⟩ | ⟨wr, new, h1, h2, h3⟩ | ⟨wr, h1, h2⟩
  · rw [SM.bind_ok h2] at h
    exact ⟨_, rfl, rfl, rfl, h⟩
  · rw [SM.bind_err h1] at h; simp at h
  · rw [SM.bind_panic h2] at h; simp at h

/-- C91. The two ways for a connection to end exclude each other. -/
theorem c91_exclusive (C : Config L S U) (V : Verdict L S U) (s : S) (u : U) (input : Bytes)
    (h1 : EndsBetween C V s u input) (h2 : EndsInside C V s u input) : False := by
  obtain ⟨tr, st, evs, left, _, d1, hl⟩ := h1
  obtain ⟨evs1, st1, l, t, m, d, evs2, st2, hl', d2, x, _, hd⟩ := h2
  have det : Handling.Det (OnlyComplete V) := by
    intro s u m b d s' u' b' d2 s2 u2 b2 h h'
    exact byText_det V _ _ _ _ _ _ _ _ _ _ _ _ (.inl h) (.inl h')
  obtain ⟨tr', _, d3⟩ := d2.split det d1 hl
  generalize hx : l ++ crlf ++ t = y at d3
  cases d3 with
  | nil => rw [← hx] at hl; exact absurd hl not_noCrlf
  | cons j1 j2 j3 =>
    obtain ⟨rfl, rfl⟩ := firstCrlf_unique hl' j1 hx
    exact exchange_exclusive j2 x hd

/-- C91. A session that ends normally has polled the ended connection once if it ended where a command line is expected, and
once more if it ended inside a message. -/
theorem c91_count (C : Config L S U) (V : Verdict L S U) (hV : ∀ s u m, WholeMessage (C.handleMail s u m) (V s u m))
    (fuel : Nat) (incoming : List (SrcEv Bytes)) (outgoing : BSink) (s : S) (u : U) (w : World L S U)
    (h : interact C fuel incoming outgoing s u = (.ok (), w)) :
    (w.reader.ends = 1 ∧ EndsBetween C V s u (evBytes incoming)) ∨
    (w.reader.ends = 2 ∧ EndsInside C V s u (evBytes incoming)) := by
  obtain ⟨w0, e1, e2, e3, h⟩ := after_banner h
  have := endsOut_loop hV fuel fuel w0
  rw [h] at this
  have hb : w0.reader.bytes = evBytes incoming := by simp [e1, Prep.bytes, Prep.evs, Prep.new]
  cases this with
  | between a1 a2 a3 a4 =>
    rw [e3, hb] at a3
    exact .inl ⟨by rw [a1, e1]; rfl, _, _, _, _, rfl, a3, a4⟩
  | inside a1 a2 a3 a4 a5 a6 a7 =>
    rw [e3, hb] at a4
    exact .inr ⟨by rw [a1, e1]; rfl, _, _, _, _, _, _, _, _, a2, a4, a5, a6, a7⟩
  | stopped a1 a2 => exact absurd rfl a1

/-- C91. If the connection ends where a command line is expected, and only then, the ended connection is polled exactly once. -/
theorem c91_once (C : Config L S U) (V : Verdict L S U) (hV : ∀ s u m, WholeMessage (C.handleMail s u m) (V s u m))
    (fuel : Nat) (incoming : List (SrcEv Bytes)) (outgoing : BSink) (s : S) (u : U) (w : World L S U)
    (h : interact C fuel incoming outgoing s u = (.ok (), w)) :
    w.reader.ends = 1 ↔ EndsBetween C V s u (evBytes incoming) := by
  rcases c91_count C V hV fuel incoming outgoing s u w h with ⟨h1, h2⟩ | ⟨h1, h2⟩
  · exact ⟨fun _ => h2, fun _ => h1⟩
  · exact ⟨fun e => by omega, fun e => (c91_exclusive C V s u _ e h2).elim⟩

/-- C91. The ended connection is polled again exactly when it ended inside a message. -/
theorem c91_again (C : Config L S U) (V : Verdict L S U) (hV : ∀ s u m, WholeMessage (C.handleMail s u m) (V s u m))
    (fuel : Nat) (incoming : List (SrcEv Bytes)) (outgoing : BSink) (s : S) (u : U) (w : World L S U)
    (h : interact C fuel incoming outgoing s u = (.ok (), w)) :
    w.reader.ends = 2 ↔ EndsInside C V s u (evBytes incoming) := by
  rcases c91_count C V hV fuel incoming outgoing s u w h with ⟨h1, h2⟩ | ⟨h1, h2⟩
  · exact ⟨fun e => by omega, fun e => (c91_exclusive C V s u _ h2 e).elim⟩
  · exact ⟨fun _ => h2, fun _ => h1⟩

/-- C91. A session that has not ended normally (it still runs, a write failed, something panicked) has polled the ended
connection at most once. -/
theorem c91_not_ended (C : Config L S U) (V : Verdict L S U) (hV : ∀ s u m, WholeMessage (C.handleMail s u m) (V s u m))
    (fuel : Nat) (incoming : List (SrcEv Bytes)) (outgoing : BSink) (s : S) (u : U) (r : Res Unit) (w : World L S U)
    (h : interact C fuel incoming outgoing s u = (r, w)) (hr : r ≠ .ok ()) : w.reader.ends ≤ 1 := by
  unfold interact session at h
  have hq := quiet_sendCfg (L := L) (U := U) C.welcomeBanner (start incoming outgoing s u)
  rcases hb : sendCfg C.welcomeBanner (start (L := L) incoming outgoing s u) with ⟨r0, w0⟩
  rw [hb] at hq
  have h0 : w0.reader.ends = 0 := by rw [hq.1]; rfl
  cases r0 with
  | ok a =>
    rw [SM.bind_ok hb] at h
    have := endsOut_loop hV fuel fuel w0
    rw [h] at this
    cases this with
    | between => exact absurd rfl hr
    | inside => exact absurd rfl hr
    | stopped a1 a2 => dsimp only at a2; omega
  | err => rw [SM.bind_err hb] at h; simp at h; rw [← h.2, h0]; omega
  | panic p => rw [SM.bind_panic hb] at h; simp at h; rw [← h.2, h0]; omega
  | running => rw [SM.bind_running hb] at h; simp at h; rw [← h.2, h0]; omega

open Ex in
/-- C91. Both cases occur: a client that goes away inside a message makes the server poll the ended connection twice, however
the bytes come in. -/
theorem c91_witness (incoming : List (SrcEv Bytes))
    (hin : evBytes incoming = b!"MAIL FROM:<a@b>\r\nRCPT TO:<c@d>\r\nDATA\r\nhi") :
    ∃ n w, interact exampleConfig n incoming ⟨[], []⟩ () () = (.ok (), w) ∧ w.reader.ends = 2 := by
  obtain ⟨n0, w, h1, h2, h3⟩ := c42_total exampleConfig exampleVerdict example_sendable example_whole incoming
    ⟨[], []⟩ (by simp) () ()
  refine ⟨n0, w, h1 n0 (Nat.le_refl _), ?_⟩
  rw [c91_again exampleConfig exampleVerdict example_whole n0 incoming ⟨[], []⟩ () () w (h1 n0 (Nat.le_refl _)), hin]
  have hd :=
    one_line' (st := ⟨(), (), none⟩) (l := b!"MAIL FROM:<a@b>") (by decide) p_mail (.mailAccepted rfl) <|
      one_line' (l := b!"RCPT TO:<c@d>") (by decide) p_rcpt (.rcptAccepted rfl) (.nil (b := b!"DATA\r\nhi"))
  have hx : Exchange exampleConfig (CutOff exampleVerdict) (commandOn (b!"DATA" ++ crlf))
      ⟨(), (), some ⟨some alice, [bob]⟩⟩ b!"hi"
      [.filterData ⟨some alice, [bob]⟩ ⟨some alice, [bob]⟩ .accept,
        .reply (⟨354⟩, b!"Start mail input; end with <CRLF>.<CRLF>"), .handleMail ⟨some alice, [bob]⟩,
        .handled (.reject ⟨⟨451⟩, b!"Bad"⟩), .reply (⟨451⟩, b!"Bad")] ⟨(), (), none⟩ [] := by
    rw [p_data]
    exact .dataHandled (by simp) rfl ⟨[], b!"hi", ⟨rfl, by simp, noCrlf_of _ (by decide)⟩, rfl, rfl⟩
  exact ⟨_, _, b!"DATA", b!"hi", ⟨some alice, [bob]⟩, .reject ⟨⟨451⟩, b!"Bad"⟩, _, _, noCrlf_of _ (by decide), hd, hx, by simp, by simp⟩

open Ex in
/-- The connection ends where a command line is expected, here inside a line. -/
theorem c91_example : EndsBetween exampleConfig exampleVerdict () ()
    b!"MAIL FROM:<a@b>\r\nRCPT TO:<c@d>\r\nDATA\r\nhi\r\n.\r\nQUI" := by
  have hd :=
    one_line' (st := ⟨(), (), none⟩) (l := b!"MAIL FROM:<a@b>") (by decide) p_mail (.mailAccepted rfl) <|
      one_line' (l := b!"RCPT TO:<c@d>") (by decide) p_rcpt (.rcptAccepted rfl) <|
      one_line' (l := b!"DATA") (by decide) p_data (.dataHandled (by simp) rfl
        ⟨[b!"hi"], ⟨rfl, by
          intro l hl; simp at hl; subst hl; exact ⟨noCrlf_of _ (by decide), by decide⟩⟩, rfl⟩) (.nil (b := b!"QUI"))
  exact ⟨_, _, _, _, rfl, hd, noCrlf_of _ (by decide)⟩

end Verif
