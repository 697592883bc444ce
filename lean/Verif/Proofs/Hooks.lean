import Verif.Spec.Hooks
import Verif.Proofs.Server
/-
Two sessions of configurations that differ in their replies only.
-/
namespace Verif
open Spec

namespace Spec
variable {L : IpLib} {S U : Type} {C D : Config L S U}

theorem SameStory.append {t t' r r' : List (Ev L)} (h : SameStory C D t t') (k : SameStory C D r r') :
    SameStory C D (t ++ r) (t' ++ r') := by
  induction h with
  | nil => exact k
  | cons h1 _ ih => exact .cons h1 ih

theorem SameStory.snoc {t t' : List (Ev L)} {e e' : Ev L} (h : SameStory C D t t') (k : SameEvent C D e e') :
    SameStory C D (t ++ [e]) (t' ++ [e']) := h.append (.cons k .nil)

theorem SameStory.length {t t' : List (Ev L)} (h : SameStory C D t t') : t.length = t'.length := by
  induction h <;> simp_all

theorem SameStory.filter {t t' : List (Ev L)} (h : SameStory C D t t') : t.filter notReply = t'.filter notReply := by
  induction h with
  | nil => rfl
  | cons k _ ih =>
    cases k with
    | same e => rw [List.filter_cons, List.filter_cons, ih]
    | said h s => simpa [List.filter_cons, notReply] using ih

end Spec

namespace Server
variable {L : IpLib} {S U : Type} (C D : Config L S U)

/-- Two worlds that differ in what was said only. -/
structure Twins (w1 w2 : World L S U) : Prop where
  reader : w1.reader = w2.reader
  plan : w1.writer.plan = w2.writer.plan
  quiet : w1.writer.plan = [] ∨ SameLineCounts C D
  cfg : w1.cfg = w2.cfg
  conn : w1.conn = w2.conn
  mail : w1.mail = w2.mail
  trace : SameStory C D w1.trace w2.trace

/-- Programs that keep twins. -/
def Para {α : Type} (p q : M L S U α) : Prop :=
  ∀ w1 w2, Twins C D w1 w2 → (p w1).1 = (q w2).1 ∧ Twins C D (p w1).2 (q w2).2

variable {C D}

theorem Para.bind {α β : Type} {p q : M L S U α} {f g : α → M L S U β} (h : Para C D p q)
    (hf : ∀ a, Para C D (f a) (g a)) : Para C D (p >>= f) (q >>= g) := by
  intro w1 w2 hw
  have := h w1 w2 hw
  rcases hp : p w1 with ⟨r1, v1⟩
  rcases hq : q w2 with ⟨r2, v2⟩
  rw [hp, hq] at this
  obtain ⟨h, h'⟩ := this
  dsimp only at h; subst h
  cases r1 with
  | ok a => rw [SM.bind_ok hp, SM.bind_ok hq]; exact hf a _ _ h'
  | err => rw [SM.bind_err hp, SM.bind_err hq]; exact ⟨rfl, h'⟩
  | panic e => rw [SM.bind_panic hp, SM.bind_panic hq]; exact ⟨rfl, h'⟩
  | running => rw [SM.bind_running hp, SM.bind_running hq]; exact ⟨rfl, h'⟩

theorem para_pure {α : Type} (a : α) : Para C D (Pure.pure a : M L S U α) (Pure.pure a) := fun _ _ h => ⟨rfl, h⟩

theorem para_panic {α : Type} (p : Panic) : Para C D (SM.panic p : M L S U α) (SM.panic p) := fun _ _ h => ⟨rfl, h⟩

theorem para_running {α : Type} : Para C D (SM.running : M L S U α) SM.running := fun _ _ h => ⟨rfl, h⟩

theorem para_modify {f : World L S U → World L S U} (h : ∀ w1 w2, Twins C D w1 w2 → Twins C D (f w1) (f w2)) :
    Para C D (SM.modify f) (SM.modify f) := fun _ _ hw => ⟨rfl, h _ _ hw⟩

theorem para_get {β : Type} {f g : World L S U → M L S U β}
    (h : ∀ w1 w2, Twins C D w1 w2 → Para C D (f w1) (g w2)) : Para C D (SM.get >>= f) (SM.get >>= g) :=
  fun w1 w2 hw => h w1 w2 hw w1 w2 hw

theorem para_emit {e e' : Ev L} (h : SameEvent C D e e') : Para C D (emit e : M L S U Unit) (emit e') :=
  fun _ _ hw => ⟨rfl, { hw with trace := hw.trace.snoc h }⟩

theorem para_setMail (m : Option (MailMeta L)) : Para C D (setMail m : M L S U Unit) (setMail m) :=
  para_modify fun _ _ h => { h with mail := rfl }

theorem para_writeLine (l l' : ReplyLine) : Para C D (writeLine l : M L S U Unit) (writeLine l') := by
  intro w1 w2 hw
  have hl : ∀ l : ReplyLine, ¬ l.byteLen < l.sendTo.length := by
    intro l
    rw [c19_byte_len]; omega
  unfold writeLine
  simp only [hl, if_false]
  obtain ⟨h1, h2, h3, h4, h5, h6, h7⟩ := hw
  unfold BSink.send
  cases hp : w1.writer.plan with
  | nil => rw [hp] at h2; simp only [← h2]; exact ⟨rfl, ⟨h1, by simp [hp, ← h2], .inl (by simp [hp]), h4, h5, h6, h7⟩⟩
  | cons r p =>
    rw [hp] at h2
    have h3' : SameLineCounts C D := h3.resolve_left (by simp [hp])
    simp only [← h2]
    cases r
    · exact ⟨rfl, ⟨h1, rfl, .inr h3', h4, h5, h6, h7⟩⟩
    all_goals exact ⟨rfl, ⟨h1, rfl, .inr h3', h4, h5, h6, h7.snoc (.same _)⟩⟩

theorem para_flush : Para C D (flush : M L S U Unit) flush := by
  intro w1 w2 hw
  obtain ⟨h1, h2, h3, h4, h5, h6, h7⟩ := hw
  cases hp : w1.writer.plan with
  | nil =>
    rw [hp] at h2
    have e1 : flush w1 = (.ok (), w1) := by unfold flush; rw [hp]
    have e2 : flush w2 = (.ok (), w2) := by unfold flush; rw [← h2]
    rw [e1, e2]
    exact ⟨rfl, ⟨h1, by rw [hp, h2], .inl hp, h4, h5, h6, h7⟩⟩
  | cons r p =>
    rw [hp] at h2
    have h3' : SameLineCounts C D := h3.resolve_left (by simp [hp])
    unfold flush
    rw [hp, ← h2]
    cases r
    · exact ⟨rfl, ⟨h1, rfl, .inr h3', h4, h5, h6, h7⟩⟩
    all_goals exact ⟨rfl, ⟨h1, rfl, .inr h3', h4, h5, h6, h7.snoc (.same _)⟩⟩

/-- Chunks that can be built. -/
def Good (code : ReplyCode) (cs : List Bytes) : Prop :=
  ∀ c ∈ cs, ∀ last, ∃ l, ReplyLine.build code last c = .ok l

theorem sendChunks_quiet {code : ReplyCode} {cs : List Bytes} (h : Good code cs) (w : World L S U)
    (hw : w.writer.plan = []) :
    ∃ out, sendChunks code cs w = (.ok (), { w with writer := ⟨out, []⟩ }) := by
  induction cs generalizing w with
  | nil =>
    refine ⟨w.writer.out, ?_⟩
    obtain ⟨rd, ⟨out, plan⟩, s, u, m, tr⟩ := w
    dsimp only at hw
    subst hw
    rfl
  | cons t ts ih =>
    obtain ⟨l, hl⟩ := h t (by simp) (if ts.isEmpty then .yes else .no)
    unfold sendChunks
    simp only [hl]
    have e : (writeLine l : M L S U Unit) w = (.ok (), { w with writer := ⟨w.writer.out ++ [l.sendTo], []⟩ }) := by
      unfold writeLine
      have h0 : ¬ l.byteLen < l.sendTo.length := by rw [c19_byte_len]; omega
      rw [if_neg h0]
      simp only [BSink.send, hw]
      rfl
    rw [SM.bind_ok e]
    exact ih (fun c hc => h c (List.mem_cons_of_mem _ hc)) { w with writer := ⟨w.writer.out ++ [l.sendTo], []⟩ } rfl

theorem para_sendChunks {code code' : ReplyCode} {cs cs' : List Bytes} (h : Good code cs) (h' : Good code' cs')
    (hl : cs.length = cs'.length) : Para C D (sendChunks code cs : M L S U Unit) (sendChunks code' cs') := by
  induction cs generalizing cs' with
  | nil =>
    cases cs' with
    | nil => exact para_flush
    | cons _ _ => simp at hl
  | cons t ts ih =>
    cases cs' with
    | nil => simp at hl
    | cons t' ts' =>
      obtain ⟨l, e⟩ := h t (by simp) (if ts.isEmpty then .yes else .no)
      obtain ⟨l', e'⟩ := h' t' (by simp) (if ts'.isEmpty then .yes else .no)
      unfold sendChunks
      simp only [e, e']
      exact (para_writeLine l l').bind fun _ =>
        ih (fun c hc => h c (List.mem_cons_of_mem _ hc)) (fun c hc => h' c (List.mem_cons_of_mem _ hc)) (by simpa using hl)

theorem sendable_chunks {r : Reply} (h : Sendable r) :
    ∃ cs, byteChunks r.2 ReplyLine.maxLen = some cs ∧ Good r.1 cs ∧ cs.length = replyLineCount r.2 := by
  obtain ⟨cs, h1, h2, h3, h4⟩ := c24_chunks r.2 506 (by omega)
  refine ⟨cs, h1, ?_, ?_⟩
  · intro c hc last
    have hlen := (h3 c hc).2
    unfold ReplyLine.build
    rw [if_neg (by simp [ReplyLine.maxLen]; omega)]
    have : c.findIdx? (fun x => !ReplyLine.allowed x) = none := by
      rw [List.findIdx?_eq_none_iff]
      intro x hx
      have := (allowed_iff x).2 (h x (by rw [← h2]; exact List.mem_flatten.2 ⟨c, hc, hx⟩))
      simp [this]
    rw [this]
    exact ⟨_, rfl⟩
  · simp only [byteChunks] at h1
    simp at h1
    rw [← h1]
    simp [replyLineCount]

theorem para_sendReply_hook {r r' : Reply} (hr : Sendable r) (hr' : Sendable r')
    (he : SameEvent C D (.reply r) (.reply r')) (hc : SameLineCounts C D → replyLineCount r.2 = replyLineCount r'.2) :
    Para C D (sendReply r : M L S U Unit) (sendReply r') := by
  obtain ⟨cs, k1, k2, k3⟩ := sendable_chunks hr
  obtain ⟨cs', j1, j2, j3⟩ := sendable_chunks hr'
  intro w1 w2 hw
  rcases hw.quiet with hq | hq
  · obtain ⟨o1, e1⟩ := sendChunks_quiet k2 w1 hq
    obtain ⟨o2, e2⟩ := sendChunks_quiet j2 w2 (by rw [← hw.plan, hq])
    unfold sendReply
    simp only [k1, j1]
    rw [SM.bind_ok e1, SM.bind_ok e2]
    exact para_emit he _ _ { hw with plan := rfl, quiet := .inl rfl }
  · unfold sendReply
    simp only [k1, j1]
    exact (para_sendChunks k2 j2 (by rw [k3, j3, hc hq])).bind (fun _ => para_emit he) w1 w2 hw

theorem para_sendReply (r : Reply) : Para C D (sendReply r : M L S U Unit) (sendReply r) := by
  have hch : ∀ (code : ReplyCode) (cs : List Bytes), Para C D (sendChunks code cs : M L S U Unit) (sendChunks code cs) := by
    intro code cs
    induction cs with
    | nil => exact para_flush
    | cons t ts ih =>
      unfold sendChunks
      cases ReplyLine.build code (if ts.isEmpty then .yes else .no) t with
      | error e => exact para_panic _
      | ok l => exact (para_writeLine l l).bind fun _ => ih
  unfold sendReply
  cases byteChunks r.2 ReplyLine.maxLen with
  | none => exact para_panic _
  | some cs => exact (hch _ _).bind fun _ => para_emit (.same _)

theorem para_sendCfg (h : Hook) (hC : Speakable C) (hD : Speakable D) :
    Para C D (sendCfg (says C h) : M L S U Unit) (sendCfg (says D h)) := by
  unfold sendCfg
  refine para_get fun w1 w2 hw => ?_
  rw [hw.cfg]
  exact para_sendReply_hook (hC h _) (hD h _) (.said h _) fun k => k h _

theorem para_nextLine : Para C D (nextLine : M L S U (Option Bytes)) nextLine := by
  intro w1 w2 hw
  unfold nextLine
  rw [hw.reader]
  cases nextCrlfLine w2.reader with
  | error p => exact ⟨rfl, hw⟩
  | ok x => exact ⟨rfl, { hw with reader := rfl }⟩

variable (hs : SameCallbacks C D)
include hs

theorem para_callHandleMail (n : Nat) (m : MailMeta L) : Para C D (callHandleMail C n m) (callHandleMail D n m) := by
  unfold callHandleMail
  refine (para_emit (.same _)).bind fun _ => para_get fun w1 w2 hw => ?_
  rw [hw.cfg, hw.conn, hw.reader, hs.handleMail]
  cases runHandler (D.handleMail w2.cfg w2.conn m) n [] (DStream.new w2.reader) with
  | running => exact para_running
  | panicked p => exact para_panic _
  | returned d s u x =>
    dsimp only
    split
    · refine Para.bind (para_modify ?_) fun _ => (para_emit (.same _)).bind fun _ => para_pure _
      exact fun _ _ h => { h with cfg := rfl, conn := rfl, reader := rfl }
    · exact para_panic _

variable (hC : Speakable C) (hD : Speakable D)
include hC hD

theorem para_handleMailCmd (f : Option (Email L)) : Para C D (handleMailCmd C f) (handleMailCmd D f) := by
  unfold handleMailCmd
  refine para_get fun w1 w2 hw => ?_
  rw [hw.mail]
  split
  · exact para_sendCfg .alreadyInMail hC hD
  · refine Para.bind ?_ fun _ => Para.bind ?_ fun r => ?_
    · unfold callNewMail
      refine Para.bind (p := SM.modify _) (q := SM.modify _) ?_ fun _ => para_emit (.same _)
      rw [hs.newMail]
      exact para_modify fun _ _ h => { h with cfg := by simp [h.cfg] }
    · unfold callFilterFrom
      refine para_get fun v1 v2 hv => ?_
      rw [hv.cfg, hv.conn, hs.filterFrom]
      rcases D.filterFrom v2.cfg v2.conn f with ⟨d, f', s', u'⟩
      refine Para.bind (para_modify ?_) fun _ => (para_emit (.same _)).bind fun _ => para_pure _
      exact fun _ _ h => { h with cfg := rfl, conn := rfl }
    · obtain ⟨d, f'⟩ := r
      cases d with
      | accept => exact (para_sendCfg .mailOkay hC hD).bind fun _ => para_setMail _
      | reject r => exact para_sendReply _

theorem para_handleRcptCmd (t : Email L) : Para C D (handleRcptCmd C t) (handleRcptCmd D t) := by
  unfold handleRcptCmd
  refine para_get fun w1 w2 hw => ?_
  rw [hw.mail]
  cases w2.mail with
  | none => exact para_sendCfg .rcptBeforeMail hC hD
  | some m =>
    refine Para.bind ?_ fun r => ?_
    · unfold callFilterTo
      refine para_get fun v1 v2 hv => ?_
      rw [hv.cfg, hv.conn, hs.filterTo]
      rcases D.filterTo v2.cfg v2.conn t m with ⟨d, t', m', s', u'⟩
      refine Para.bind (para_modify ?_) fun _ => (para_emit (.same _)).bind fun _ => para_pure _
      exact fun _ _ h => { h with cfg := rfl, conn := rfl, mail := rfl }
    · obtain ⟨d, t', m'⟩ := r
      cases d with
      | accept => exact (para_setMail _).bind fun _ => para_sendCfg .rcptOkay hC hD
      | reject r => exact para_sendReply _

theorem para_handleDataCmd (n : Nat) : Para C D (handleDataCmd C n) (handleDataCmd D n) := by
  unfold handleDataCmd
  refine para_get fun w1 w2 hw => ?_
  rw [hw.mail]
  cases w2.mail with
  | none => exact para_sendCfg .dataBeforeMail hC hD
  | some m =>
    refine (para_setMail _).bind fun _ => ?_
    split
    · exact (para_sendCfg .dataBeforeRcpt hC hD).bind fun _ => para_setMail _
    · refine Para.bind ?_ fun r => ?_
      · unfold callFilterData
        refine para_get fun v1 v2 hv => ?_
        rw [hv.cfg, hv.conn, hs.filterData]
        rcases D.filterData v2.cfg v2.conn m with ⟨d, m', s', u'⟩
        refine Para.bind (para_modify ?_) fun _ => (para_emit (.same _)).bind fun _ => para_pure _
        exact fun _ _ h => { h with cfg := rfl, conn := rfl }
      · obtain ⟨d, m'⟩ := r
        cases d with
        | accept =>
          refine (para_sendCfg .dataOkay hC hD).bind fun _ => (para_callHandleMail hs n m').bind fun d => ?_
          cases d with
          | accept => exact para_sendCfg .mailAccepted hC hD
          | reject r => exact para_sendReply _
        | reject r => exact (para_sendReply _).bind fun _ => para_setMail _

theorem para_handleLine (n : Nat) (l : Bytes) : Para C D (handleLine C n l) (handleLine D n l) := by
  unfold handleLine
  cases (Command.parse l : Except ParseErr (Command L)) with
  | error e => exact para_sendCfg .commandUnrecognized hC hD
  | ok c =>
    cases c with
    | mail f p => exact para_handleMailCmd hs hC hD f
    | rcpt t p => exact para_handleRcptCmd hs hC hD t
    | data => exact para_handleDataCmd hs hC hD n
    | _ => exact para_sendCfg .commandUnimplemented hC hD

theorem para_loop (n k : Nat) : Para C D (loop C n k) (loop D n k) := by
  induction k with
  | zero => exact para_running
  | succ k ih =>
    unfold loop
    refine para_nextLine.bind fun l => ?_
    cases l with
    | none => exact para_pure _
    | some l => exact (para_emit (.same _)).bind fun _ => (para_handleLine hs hC hD n l).bind fun _ => ih

theorem para_session (n : Nat) : Para C D (session C n) (session D n) :=
  (para_sendCfg .welcomeBanner hC hD).bind fun _ => para_loop hs hC hD n n

end Server
end Verif
