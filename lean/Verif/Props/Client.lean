import Verif.Spec.Client
import Verif.Props.SessionEnd
import Verif.Props.SessionExamples
/-
C80: a client can decode what the server writes.
-/
namespace Verif
open Spec Server
variable {L : IpLib} {S U : Type}

/-! ### What every session keeps -/

/-- `m` keeps the property `P` of the world, however it ends. -/
def Keeps {W α : Type} (P : W → Prop) (m : SM W α) : Prop := ∀ w, P w → P (m w).2

theorem Keeps.pure {W α : Type} {P : W → Prop} (a : α) : Keeps P (Pure.pure a : SM W α) := fun _ h => h
theorem Keeps.bind {W α β : Type} {P : W → Prop} {m : SM W α} {f : α → SM W β} (hm : Keeps P m) (hf : ∀ a, Keeps P (f a)) :
    Keeps P (m >>= f) := by
  intro w h
  have := hm w h
  show P (SM.bind m f w).2
  unfold SM.bind
  cases e : m w with
  | mk r w' =>
    rw [e] at this
    cases r with
    | ok a => exact hf a w' this
    | err => exact this
    | panic p => exact this
    | running => exact this
theorem Keeps.get {W : Type} {P : W → Prop} : Keeps P (SM.get : SM W W) := fun _ h => h
theorem Keeps.panic {W α : Type} {P : W → Prop} (p : Panic) : Keeps P (SM.panic p : SM W α) := fun _ h => h
theorem Keeps.running {W α : Type} {P : W → Prop} : Keeps P (SM.running : SM W α) := fun _ h => h

/-- All replies on record could be sent. -/
def SentSendable (w : World L S U) : Prop := ∀ r, Ev.reply r ∈ w.trace → Sendable r

theorem keeps_emit {e : Ev L} (h : ∀ r, e = .reply r → Sendable r) : Keeps (SentSendable (S := S) (U := U)) (emit e) := by
  intro w hw r hr
  simp only [emit, SM.modify, List.mem_append, List.mem_singleton] at hr
  rcases hr with hr | hr
  · exact hw r hr
  · exact h r hr.symm

theorem keeps_modify {f : World L S U → World L S U} (h : ∀ w, (f w).trace = w.trace) : Keeps SentSendable (SM.modify f) := by
  intro w hw r hr
  simp only [SM.modify, h] at hr
  exact hw r hr

theorem keeps_sendReply (r : Reply) : Keeps (SentSendable (L := L) (S := S) (U := U)) (Server.sendReply r) := by
  intro w hw x hx
  rcases sendReply_cases r w with ⟨wr, h1, h2, h3⟩ | ⟨wr, new, h1, _⟩ | ⟨wr, _, h1⟩
  · rw [h2] at hx
    simp only [List.mem_append, List.mem_singleton, Ev.reply.injEq] at hx
    rcases hx with hx | rfl
    · exact hw x hx
    · exact h1
  · rw [h1] at hx
    simp only [List.mem_append, List.mem_singleton, reduceCtorEq, or_false] at hx
    exact hw x hx
  · rw [h1] at hx; exact hw x hx

theorem keeps_sendCfg (f : S → Reply) : Keeps (SentSendable (L := L) (S := S) (U := U)) (sendCfg f) :=
  Keeps.get.bind fun _ => keeps_sendReply _

theorem keeps_setMail (m : Option (MailMeta L)) : Keeps (SentSendable (L := L) (S := S) (U := U)) (setMail m) :=
  keeps_modify fun _ => rfl

theorem keeps_handleLine (C : Config L S U) (fuel : Nat) (l : Bytes) : Keeps SentSendable (handleLine C fuel l) := by
  unfold handleLine
  split
  · refine Keeps.get.bind fun w => ?_
    split
    · exact keeps_sendCfg _
    · refine Keeps.bind (Keeps.bind (keeps_modify fun _ => rfl) fun _ => keeps_emit (by simp)) fun _ => ?_
      refine Keeps.bind (Keeps.get.bind fun w => Keeps.bind (keeps_modify fun _ => rfl) fun _ =>
        Keeps.bind (keeps_emit (by simp)) fun _ => .pure _) fun d => ?_
      split
      · exact (keeps_sendCfg _).bind fun _ => keeps_setMail _
      · exact keeps_sendReply _
  · refine Keeps.get.bind fun w => ?_
    split
    · refine Keeps.bind (Keeps.get.bind fun w => Keeps.bind (keeps_modify fun _ => rfl) fun _ =>
        Keeps.bind (keeps_emit (by simp)) fun _ => .pure _) fun d => ?_
      split
      · exact (keeps_setMail _).bind fun _ => keeps_sendCfg _
      · exact keeps_sendReply _
    · exact keeps_sendCfg _
  · refine Keeps.get.bind fun w => ?_
    split
    · refine (keeps_setMail _).bind fun _ => ?_
      split
      · exact (keeps_sendCfg _).bind fun _ => keeps_setMail _
      · refine Keeps.bind (Keeps.get.bind fun w => Keeps.bind (keeps_modify fun _ => rfl) fun _ =>
          Keeps.bind (keeps_emit (by simp)) fun _ => .pure _) fun d => ?_
        split
        · refine (keeps_sendCfg _).bind fun _ => ?_
          refine Keeps.bind (Keeps.bind (keeps_emit (by simp)) fun _ => Keeps.get.bind fun w => ?_) fun d => ?_
          · split
            · exact .running
            · exact .panic _
            · split
              · exact Keeps.bind (keeps_modify fun _ => rfl) fun _ => Keeps.bind (keeps_emit (by simp)) fun _ => .pure _
              · exact .panic _
          · split
            · exact keeps_sendCfg _
            · exact keeps_sendReply _
        · exact (keeps_sendReply _).bind fun _ => keeps_setMail _
    · exact keeps_sendCfg _
  · exact keeps_sendCfg _
  · exact keeps_sendCfg _

theorem keeps_loop (C : Config L S U) (fuel n : Nat) : Keeps SentSendable (loop C fuel n) := by
  induction n with
  | zero => exact .running
  | succ n ih =>
    refine Keeps.bind ?_ fun l => ?_
    · intro w hw
      unfold nextLine
      split <;> exact hw
    · split
      · exact .pure _
      · exact (keeps_emit (by simp)).bind fun _ => (keeps_handleLine C fuel _).bind fun _ => ih

/-- Every reply a session has sent had a text that can be sent. -/
theorem interact_sendable (C : Config L S U) (fuel : Nat) (incoming : List (SrcEv Bytes)) (outgoing : BSink) (s : S) (u : U) :
    ∀ r ∈ repliesOf (interact C fuel incoming outgoing s u).2.trace, Sendable r := by
  have h : SentSendable (interact C fuel incoming outgoing s u).2 :=
    ((keeps_sendCfg _).bind fun _ => keeps_loop C fuel fuel) _ (by intro r hr; simp [start] at hr)
  have : ∀ (evs : List (Ev L)) r, r ∈ repliesOf evs → Ev.reply r ∈ evs := by
    intro evs
    induction evs with
    | nil => simp [repliesOf]
    | cons e evs ih =>
      intro r hr
      cases e <;> simp [repliesOf] at hr <;> simp <;> (try exact ih r hr)
      rcases hr with rfl | hr
      · exact .inl rfl
      · exact .inr (ih r hr)
  exact fun r hr => h r (this _ r hr)

/-! ### Reading -/

theorem readLines_lines (ws : List Bytes) : ∀ (s : Prep Bytes), (∀ w ∈ ws, OneLine w) → s.bytes = ws.flatten →
    ∃ s', readLines s = .ok (ws, s') := by
  induction ws with
  | nil =>
    intro s _ hb
    obtain ⟨s', h, _⟩ := c15_no_line s (by rw [hb]; rintro ⟨a, b, h⟩; simp [crlf] at h)
    refine ⟨s', ?_⟩
    rw [readLines]
    split <;> rename_i h' <;> rw [h] at h' <;> simp at h'
    simp [h']
  | cons w ws ih =>
    intro s hw hb
    obtain ⟨l, rfl, hl⟩ := hw w (by simp)
    obtain ⟨s1, h1, h2⟩ := c14_next_line s l ws.flatten hl (by simpa using hb)
    rw [Prep.items_flatten] at h2
    obtain ⟨s2, h3⟩ := ih s1 (fun w hw' => hw w (by simp [hw'])) h2
    refine ⟨s2, ?_⟩
    rw [readLines]
    split <;> rename_i h' <;> rw [h1] at h' <;> simp at h'
    obtain ⟨rfl, rfl⟩ := h'
    simp [h3]

theorem parse_lines (ls : List ReplyLine) (h : ∀ l ∈ ls, ReplyLine.parse l.sendTo = .ok l) :
    parseReplyLines (ls.map (·.sendTo)) = some ls := by
  induction ls with
  | nil => rfl
  | cons l ls ih => simp [parseReplyLines, h l (by simp), ih fun l hl => h l (by simp [hl])]

theorem collect_reply (code : ReplyCode) (more : List ReplyLine) : ∀ (ls : List ReplyLine) (acc : Bytes), ls ≠ [] →
    (∀ l ∈ ls, l.code = code) → (∀ l ∈ ls.dropLast, l.isLast = .no) → (∀ l, ls.getLast? = some l → l.isLast = .yes) →
    collectReplies acc (ls ++ more) = (code, acc ++ (ls.map (·.line)).flatten) :: collectReplies [] more
  | [], _, h, _, _, _ => absurd rfl h
  | [l], acc, _, h1, _, h3 => by
    have hy : l.isLast = .yes := h3 l rfl
    simp [collectReplies, hy, h1 l]
  | l :: l' :: ls, acc, _, h1, h2, h3 => by
    have := collect_reply code more (l' :: ls) (acc ++ l.line) (by simp) (fun x hx => h1 x (by simp [hx]))
      (fun x hx => h2 x (by simp [hx])) (fun x hx => h3 x (by simpa using hx))
    have hn : l.isLast = .no := h2 l (by simp)
    rw [List.cons_append, collectReplies, hn, this]
    simp

theorem collect_unfinished : ∀ (ls : List ReplyLine) (acc : Bytes), (∀ l ∈ ls, l.isLast = .no) → collectReplies acc ls = []
  | [], _, _ => rfl
  | l :: ls, acc, h => by
    have hn : l.isLast = .no := h l (by simp)
    simp only [collectReplies, hn]
    exact collect_unfinished ls _ fun x hx => h x (by simp [hx])

/-- The lines of a list of replies, as a client sees them. -/
theorem lines_of_replies (rs : List Reply) (hs : ∀ r ∈ rs, Sendable r) (hc : ∀ r ∈ rs, r.1.code < 1000) :
    ∃ ls : List ReplyLine, rs.flatMap wire = ls.map (·.sendTo) ∧ (∀ l ∈ ls, OneLine l.sendTo ∧
      ReplyLine.parse l.sendTo = .ok l) ∧ ∀ more, collectReplies [] (ls ++ more) =
      rs.filter (fun r => r.2 ≠ []) ++ collectReplies [] more := by
  induction rs with
  | nil => exact ⟨[], rfl, by simp, by simp⟩
  | cons r rs ih =>
    obtain ⟨ls, e1, e2, e3⟩ := ih (fun r hr => hs r (by simp [hr])) (fun r hr => hc r (by simp [hr]))
    obtain ⟨ls1, h1, h2, h3, h4, h5⟩ := c25_lines r.1 r.2 (hs r (by simp))
    refine ⟨ls1 ++ ls, by simp [wire, h1, e1], ?_, ?_⟩
    · intro l hl
      rcases List.mem_append.1 hl with hl | hl
      · obtain ⟨_, k2, _⟩ := h3 l hl
        exact ⟨(c18_wire_form _ _ _ _ k2 (hc r (by simp))).2.2, by
          rw [c20_roundtrip _ _ _ _ k2 (hc r (by simp))]
          obtain ⟨_, k⟩ := (c17_build_ok _ _ _ _).1 k2
          rw [← k]⟩
      · exact e2 l hl
    · intro more
      by_cases hne : r.2 = []
      · have : ls1 = [] := by
          cases ls1 with
          | nil => rfl
          | cons l ls1 =>
            exfalso
            have := (h3 l (by simp)).2.2
            rw [hne] at h2
            simp at h2
            exact this h2.1
        subst this
        simp [hne]
        simpa using e3 more
      · have : ls1 ≠ [] := by rintro rfl; simp at h2; exact hne h2
        rw [List.append_assoc, collect_reply r.1 _ ls1 [] this (fun l hl => (h3 l hl).1) (fun l hl => (h4 l hl).1) h5, h2,
          e3 more]
        simp [hne]

theorem client_lines (ls : List ReplyLine) (h : ∀ l ∈ ls, OneLine l.sendTo ∧ ReplyLine.parse l.sendTo = .ok l)
    (incoming : List (SrcEv Bytes)) (hin : evBytes incoming = (ls.map (·.sendTo)).flatten) :
    clientReplies incoming = some (collectReplies [] ls) := by
  obtain ⟨s', h'⟩ := readLines_lines (ls.map ReplyLine.sendTo) (Prep.new incoming) (by
    intro w hw
    obtain ⟨l, hl, rfl⟩ := List.mem_map.1 hw
    exact (h l hl).1) hin
  simp only [clientReplies, h', parse_lines ls fun l hl => (h l hl).2, Option.map_some]

/-! ### C80 The reply stream can be decoded -/

/-- C80. Whatever replies the server sends, a client that reads the bytes, in any packets and with any delays, line by line,
and groups the lines by their last-line mark, recovers these replies with code and whole text, however long - all but those
with empty text, for which nothing is written (C26). -/
theorem c80_decodable (rs : List Reply) (hs : ∀ r ∈ rs, Sendable r) (hc : ∀ r ∈ rs, r.1.code < 1000)
    (incoming : List (SrcEv Bytes)) (hin : evBytes incoming = (rs.flatMap wire).flatten) :
    clientReplies incoming = some (rs.filter fun r => r.2 ≠ []) := by
  obtain ⟨ls, e1, e2, e3⟩ := lines_of_replies rs hs hc
  rw [client_lines ls e2 incoming (by rw [hin, e1])]
  simpa [collectReplies] using e3 []

/-- C80, for a session that ended normally: the client understands exactly the replies of the session. -/
theorem c80_session (C : Config L S U) (fuel : Nat) (incoming : List (SrcEv Bytes)) (outgoing : BSink) (ho : outgoing.out = [])
    (s : S) (u : U) (w : World L S U) (h : interact C fuel incoming outgoing s u = (.ok (), w))
    (hc : ∀ r ∈ repliesOf w.trace, r.1.code < 1000) (received : List (SrcEv Bytes))
    (hin : evBytes received = w.writer.out.flatten) :
    clientReplies received = some ((repliesOf w.trace).filter fun r => r.2 ≠ []) := by
  obtain ⟨new, h1, h2⟩ := c46_output C fuel incoming outgoing s u _ _ h
  have := interact_sendable C fuel incoming outgoing s u
  rw [h] at this
  refine c80_decodable _ this hc received ?_
  rw [hin, h1, h2 rfl, ho]
  simp

/-- C80, when the connection failed: the client understands all replies on record, and perhaps the one that was being sent. -/
theorem c80_after_write_error (C : Config L S U) (fuel : Nat) (incoming : List (SrcEv Bytes))
    (outgoing : BSink) (ho : outgoing.out = []) (s : S) (u : U) (w : World L S U)
    (h : interact C fuel incoming outgoing s u = (.err, w)) (received : List (SrcEv Bytes))
    (hin : evBytes received = w.writer.out.flatten) (hc : ∀ r ∈ repliesOf w.trace, r.1.code < 1000) :
    ∃ x, (x.1.code < 1000 → Sendable x →
      (clientReplies received = some ((repliesOf w.trace).filter fun r => r.2 ≠ []) ∨
       clientReplies received = some (((repliesOf w.trace).filter fun r => r.2 ≠ []) ++ [x]))) ∧
      ((w.trace = [.writeError] ∧ x = C.welcomeBanner s) ∨
       ∃ (blocks : List (List (Ev L))) (part rest : List (Ev L)),
        w.trace = .reply (C.welcomeBanner s) :: blocks.flatten ++ part ++ [.writeError] ∧
        (∀ y ∈ blocks, Block C y) ∧ Block C (part ++ .reply x :: rest)) := by
  obtain ⟨new, x, h1, h2, h3⟩ := c46_output_error C fuel incoming outgoing s u w h
  have hsend := interact_sendable C fuel incoming outgoing s u
  rw [h] at hsend
  refine ⟨x, fun hx1 hx2 => ?_, h3⟩
  obtain ⟨ls, e1, e2, e3⟩ := lines_of_replies _ hsend hc
  obtain ⟨ls1, k1, k2, k3, k4, k5⟩ := c25_lines x.1 x.2 hx2
  have hw : wire x = ls1.map (·.sendTo) := by simp [wire, k1]
  have hpre := h2 hx2
  rw [hw] at hpre
  obtain ⟨tl, htl⟩ := hpre
  obtain ⟨a, b, rfl, ha, hb⟩ := List.append_eq_map_iff.1 htl
  have hl : ∀ l ∈ ls ++ a, OneLine l.sendTo ∧ ReplyLine.parse l.sendTo = .ok l := by
    intro l hl
    rcases List.mem_append.1 hl with hl | hl
    · exact e2 l hl
    · obtain ⟨_, j2, _⟩ := k3 l (by simp [hl])
      refine ⟨(c18_wire_form _ _ _ _ j2 hx1).2.2, ?_⟩
      rw [c20_roundtrip _ _ _ _ j2 hx1]
      obtain ⟨_, k⟩ := (c17_build_ok _ _ _ _).1 j2
      rw [← k]
  rw [client_lines (ls ++ a) hl received (by rw [hin, h1, ho, e1, ← ha]; simp), e3]
  cases b with
  | nil =>
    rw [List.append_nil] at k2 k3 k4 k5
    by_cases hn : a = []
    · left; simp [hn, collectReplies]
    · right
      have := collect_reply x.1 [] a [] hn (fun l hl => (k3 l hl).1) (fun l hl => (k4 l hl).1) k5
      rw [List.append_nil] at this
      rw [this, k2]
      simp [collectReplies]
  | cons b0 b =>
    left
    rw [collect_unfinished a [] (fun l hl => (k4 l (by
      rw [List.dropLast_append_of_ne_nil (by simp)]; simp [hl])).1)]
    simp

/-- A session of the conformance examples, read by a client from other packets. -/
theorem c80_example : clientReplies [.pkt b!"250-a", .pending, .pkt b!"b\r", .pkt b!"\n250 cd\r\n500", .pkt b!" no\r\n"] =
    some [(⟨250⟩, b!"abcd"), (⟨500⟩, b!"no")] := by
  decide +kernel

end Verif
