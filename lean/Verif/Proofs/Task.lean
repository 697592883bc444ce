import Verif.Model.Task
import Verif.Proofs.Server
/-
The state machine of `interact` (Model/Task.lean) does what the model of `interact` (Model/Server.lean) does.
-/
namespace Verif.Task
open Server Spec
variable {L : IpLib} {S U : Type} {C : Config L S U}

theorem steps_add (C : Config L S U) (m n : Nat) (x : State L S U) : steps C (m + n) x = steps C n (steps C m x) := by
  induction m generalizing x with
  | zero => rw [Nat.zero_add]; rfl
  | succ m ih => rw [Nat.succ_add]; exact ih _

theorem steps_succ (C : Config L S U) (n : Nat) (x : State L S U) : steps C (n + 1) x = step C (steps C n x) :=
  steps_add C n 1 x

theorem steps_one (C : Config L S U) (x : State L S U) : steps C 1 x = step C x := rfl

theorem steps_over (C : Config L S U) (n : Nat) (r : Res Unit) (w : World L S U) : steps C n (.over r, w) = (.over r, w) := by
  induction n with
  | zero => rfl
  | succ n ih => exact ih

/-- Where a piece of program that ends with `res` leads to, if `after` comes then. -/
def land (C : Config L S U) (after : After L) : Res Unit × World L S U → State L S U
  | (.ok _, w) => resume C w after
  | (.err, w) => (.over .err, w)
  | (.panic p, w) => (.over (.panic p), w)
  | (.running, w) => (.over .running, w)

theorem send_chunks (r : Reply) (after : After L) (cs : List Bytes) (w : World L S U) :
    ∃ k, 1 ≤ k ∧ steps C k (.send r cs after, w) = land C after ((sendChunks r.1 cs >>= fun _ => emit (.reply r)) w) := by
  induction cs generalizing w with
  | nil =>
    refine ⟨1, Nat.le_refl _, ?_⟩
    rw [steps_one]
    simp only [step, sendChunks]
    rcases flush_cases w with ⟨wr, h, _⟩ | ⟨wr, h, _⟩
    · rw [SM.bind_ok h, h]; rfl
    · rw [SM.bind_err h, h]; rfl
  | cons t ts ih =>
    simp only [sendChunks]
    cases hb : ReplyLine.build r.1 (if ts.isEmpty then .yes else .no) t with
    | error e => exact ⟨1, Nat.le_refl _, by rw [steps_one]; simp only [step, hb]; rfl⟩
    | ok l =>
      simp only
      rcases writeLine_cases l w with ⟨wr, h, _⟩ | ⟨wr, h, _⟩
      · obtain ⟨k, hk, hs⟩ := ih { w with writer := wr }
        refine ⟨k + 1, by omega, ?_⟩
        simp only [steps]
        simp only [step, hb, h]
        rw [SM.bind_assoc', SM.bind_ok h]
        exact hs
      · refine ⟨1, Nat.le_refl _, ?_⟩
        rw [steps_one]
        simp only [step, hb, h]
        rw [SM.bind_assoc', SM.bind_err h]
        rfl

theorem send_reply (r : Reply) (after : After L) (w : World L S U) :
    ∃ k, 1 ≤ k ∧ steps C k (reply r after, w) = land C after (Server.sendReply r w) := by
  unfold reply Server.sendReply
  cases byteChunks r.2 ReplyLine.maxLen with
  | none => exact ⟨1, Nat.le_refl _, rfl⟩
  | some cs => exact send_chunks r after cs w

/-- The future gets from `x` to where the program that ends with `res` after a line leads to; in the case of `running`, in at
least `fuel` steps, to some place that is not an end. -/
def Leads (C : Config L S U) (fuel : Nat) (x : State L S U) : Res Unit × World L S U → Prop
  | (.running, w) => ∃ k pc, fuel ≤ k ∧ steps C k x = (pc, w) ∧ ∀ r, pc ≠ .over r
  | (.ok a, w) => ∃ k, steps C k x = (.read [], w)
  | (.err, w) => ∃ k, steps C k x = (.over .err, w)
  | (.panic p, w) => ∃ k, steps C k x = (.over (.panic p), w)

theorem Leads.before {fuel k : Nat} {x y : State L S U} {res : Res Unit × World L S U} (h : steps C k x = y)
    (h' : Leads C fuel y res) : Leads C fuel x res := by
  obtain ⟨r, w⟩ := res
  subst h
  cases r with
  | ok a => obtain ⟨n, hn⟩ := h'; exact ⟨k + n, by rw [steps_add]; exact hn⟩
  | err => obtain ⟨n, hn⟩ := h'; exact ⟨k + n, by rw [steps_add]; exact hn⟩
  | panic p => obtain ⟨n, hn⟩ := h'; exact ⟨k + n, by rw [steps_add]; exact hn⟩
  | running => obtain ⟨n, pc, h1, h2, h3⟩ := h'; exact ⟨k + n, pc, by omega, by rw [steps_add]; exact h2, h3⟩

theorem leads_reply (fuel : Nat) (r : Reply) (w : World L S U) : Leads C fuel (reply r .next, w) (Server.sendReply r w) := by
  obtain ⟨k, _, hk⟩ := send_reply (C := C) r .next w
  rcases sendReply_cases r w with ⟨wr, _, h, _⟩ | ⟨wr, new, h, _⟩ | ⟨wr, _, h⟩ <;> rw [h] at hk ⊢ <;> exact ⟨k, hk⟩

theorem leads_replySet (fuel : Nat) (r : Reply) (m : Option (MailMeta L)) (w : World L S U) :
    Leads C fuel (reply r (.setMail m), w) ((Server.sendReply r >>= fun _ => setMail m) w) := by
  obtain ⟨k, _, hk⟩ := send_reply (C := C) r (.setMail m) w
  rcases sendReply_cases r w with ⟨wr, _, h, _⟩ | ⟨wr, new, h, _⟩ | ⟨wr, _, h⟩ <;> rw [h] at hk
  · rw [SM.bind_ok h]; exact ⟨k, hk⟩
  · rw [SM.bind_err h]; exact ⟨k, hk⟩
  · rw [SM.bind_panic h]; exact ⟨k, hk⟩

theorem leads_mail (fuel : Nat) (f : Option (Email L)) (w : World L S U) :
    Leads C fuel (if w.mail.isSome then (reply (C.alreadyInMail w.cfg) .next, w) else (.newMail f, w)) (handleMailCmd C f w) := by
  unfold handleMailCmd
  rw [SM.get_bind]
  by_cases h : w.mail.isSome = true
  · rw [if_pos h, if_pos h]; exact leads_reply _ _ _
  rw [if_neg h, if_neg h]
  refine Leads.before (k := 2) rfl ?_
  rcases hf : C.filterFrom (C.newMail w.cfg) w.conn f with ⟨d, f', s, u⟩
  simp only [steps, step, callNewMail, callFilterFrom, SM.bind_assoc', SM.modify_bind, emit_bind, SM.get_bind, SM.pure_bind', hf]
  cases d with
  | accept => exact leads_replySet _ _ _ _
  | reject r => exact leads_reply _ _ _

theorem leads_rcpt (fuel : Nat) (t : Email L) (w : World L S U) :
    Leads C fuel (match w.mail with
      | some m => (.filterTo t m, w)
      | none => (reply (C.rcptBeforeMail w.cfg) .next, w)) (handleRcptCmd C t w) := by
  unfold handleRcptCmd
  rw [SM.get_bind]
  cases w.mail with
  | none => exact leads_reply _ _ _
  | some m =>
    refine Leads.before (k := 1) rfl ?_
    rcases hf : C.filterTo w.cfg w.conn t m with ⟨d, t', m', s, u⟩
    simp only [steps, step, callFilterTo, SM.bind_assoc', SM.modify_bind, emit_bind, SM.get_bind, SM.pure_bind', hf]
    cases d with
    | accept => exact leads_reply _ _ _
    | reject r => exact leads_reply _ _ _

theorem handler_steps (act : List HObs → HAct S U) (w : World L S U) : ∀ (n : Nat) (h : List HObs) (d : DStream),
    match runHandler act n h d with
    | .running => ∃ h' d', steps C n (.handle act h d, w) = (.handle act h' d', w)
    | .panicked p => ∃ k, steps C k (.handle act h d, w) = (.over (.panic p), w)
    | .returned dec s u x => ∃ k, steps C k (.handle act h d, w) =
        if x.wasCompleted then
          (reply (match dec with | .accept => C.mailAccepted s | .reject r => (r.code, r.msg)) .next,
            { w with cfg := s, conn := u, reader := x.source, trace := w.trace ++ [.handled dec] })
        else (.over (.panic .notCompleted), w)
  | 0, h, d => ⟨h, d, rfl⟩
  | n + 1, h, d => by
    simp only [runHandler]
    cases ha : act h with
    | done dec s u => exact ⟨1, by rw [steps_one]; simp only [step, ha]; rfl⟩
    | poll =>
      have := handler_steps act w n (h ++ [.polled d.pollNext.1]) d.pollNext.2
      have hs : step C (.handle act h d, w) = (.handle act (h ++ [.polled d.pollNext.1]) d.pollNext.2, w) := by simp [step, ha]
      cases hr : runHandler act n (h ++ [.polled d.pollNext.1]) d.pollNext.2 with
      | running => rw [hr] at this; simp only [steps, hs]; exact this
      | panicked p => rw [hr] at this; obtain ⟨k, hk⟩ := this; exact ⟨k + 1, by simp only [steps, hs]; exact hk⟩
      | returned dec s u x => rw [hr] at this; obtain ⟨k, hk⟩ := this; exact ⟨k + 1, by simp only [steps, hs]; exact hk⟩
    | complete =>
      cases hc : d.complete with
      | error p => exact ⟨1, by rw [steps_one]; simp only [step, ha, hc]⟩
      | ok y =>
        obtain ⟨ok, d'⟩ := y
        have := handler_steps act w n (h ++ [.completed ok]) d'
        have hs : step C (.handle act h d, w) = (.handle act (h ++ [.completed ok]) d', w) := by simp [step, ha, hc]
        simp only
        cases hr : runHandler act n (h ++ [.completed ok]) d' with
        | running => rw [hr] at this; simp only [steps, hs]; exact this
        | panicked p => rw [hr] at this; obtain ⟨k, hk⟩ := this; exact ⟨k + 1, by simp only [steps, hs]; exact hk⟩
        | returned dec s u x => rw [hr] at this; obtain ⟨k, hk⟩ := this; exact ⟨k + 1, by simp only [steps, hs]; exact hk⟩

theorem leads_handle (fuel : Nat) (m : MailMeta L) (w : World L S U) :
    Leads C fuel (resume C w (.handle m)) ((callHandleMail C fuel m >>= fun d => match d with
      | .accept => sendCfg C.mailAccepted
      | .reject r => Server.sendReply (r.code, r.msg)) w) := by
  have := handler_steps (C := C) (C.handleMail w.cfg w.conn m) { w with trace := w.trace ++ [.handleMail m] } fuel []
    (DStream.new w.reader)
  unfold callHandleMail
  simp only [SM.bind_assoc', emit_bind, SM.get_bind]
  cases hr : runHandler (C.handleMail w.cfg w.conn m) fuel [] (DStream.new w.reader) with
  | running =>
    rw [hr] at this
    obtain ⟨h', d', hk⟩ := this
    exact ⟨fuel, _, Nat.le_refl _, hk, fun r h => by cases h⟩
  | panicked p =>
    rw [hr] at this
    obtain ⟨k, hk⟩ := this
    exact ⟨k, hk⟩
  | returned dec s u x =>
    rw [hr] at this
    obtain ⟨k, hk⟩ := this
    simp only at hk ⊢
    by_cases hx : x.wasCompleted = true
    · rw [if_pos hx] at hk ⊢
      refine Leads.before hk ?_
      cases dec with
      | accept => exact leads_reply _ _ _
      | reject r => exact leads_reply _ _ _
    · rw [if_neg hx] at hk ⊢
      exact ⟨k, hk⟩

theorem leads_data (fuel : Nat) (w : World L S U) :
    Leads C fuel (match w.mail with
      | some m =>
        if m.to.isEmpty then (reply (C.dataBeforeRcpt w.cfg) (.setMail (some m)), { w with mail := none })
        else (.filterData m, { w with mail := none })
      | none => (reply (C.dataBeforeMail w.cfg) .next, w)) (handleDataCmd C fuel w) := by
  unfold handleDataCmd
  rw [SM.get_bind]
  cases w.mail with
  | none => exact leads_reply _ _ _
  | some m =>
    simp only [setMail_bind]
    by_cases h : m.to.isEmpty = true
    · rw [if_pos h, if_pos h]; exact leads_replySet _ _ _ _
    rw [if_neg h, if_neg h]
    refine Leads.before (k := 1) rfl ?_
    rcases hf : C.filterData w.cfg w.conn m with ⟨d, m', s, u⟩
    simp only [steps, step, callFilterData, SM.bind_assoc', SM.modify_bind, emit_bind, SM.get_bind, SM.pure_bind', hf]
    cases d with
    | reject r => exact leads_replySet _ _ _ _
    | accept =>
      simp only [sendCfg, SM.bind_assoc', SM.get_bind]
      obtain ⟨k, _, hk⟩ := send_reply (C := C) (C.dataOkay s) (.handle m')
        { w with mail := none, cfg := s, conn := u, trace := w.trace ++ [.filterData m m' .accept] }
      rcases sendReply_cases (C.dataOkay s)
        { w with mail := none, cfg := s, conn := u, trace := w.trace ++ [.filterData m m' .accept] } with
        ⟨wr, _, h, _⟩ | ⟨wr, new, h, _⟩ | ⟨wr, _, h⟩ <;> rw [h] at hk
      · rw [SM.bind_ok h]; exact Leads.before hk (leads_handle _ _ _)
      · rw [SM.bind_err h]; exact ⟨k, hk⟩
      · rw [SM.bind_panic h]; exact ⟨k, hk⟩

theorem leads_line (fuel : Nat) (l : Bytes) (w : World L S U) : Leads C fuel (dispatch C w l) (handleLine C fuel l w) := by
  unfold dispatch handleLine
  cases (Command.parse l : Except ParseErr (Command L)) with
  | error e => exact leads_reply _ _ _
  | ok c =>
    cases c with
    | mail f p => exact leads_mail _ _ _
    | rcpt t p => exact leads_rcpt _ _ _
    | data => exact leads_data _ _
    | _ => exact leads_reply _ _ _

theorem next_line (s : Prep Bytes) (buf : Bytes) (w : World L S U) (hw : w.reader = s) :
    match nextCrlfLineLoop s buf with
    | .ok (none, s') => ∃ k, steps C (k + 1) (.read buf, w) = (.over (.ok ()), { w with reader := s' })
    | .ok (some l, s') => ∃ k, steps C (k + 1) (.read buf, w) =
        dispatch C { w with reader := s', trace := w.trace ++ [.line l] } l
    | .error _ => False := by
  fun_induction nextCrlfLineLoop s buf generalizing w with
  | case1 s buf s' h ih =>
    have hs : step C (.read buf, w) = (.read buf, { w with reader := s' }) := by simp [step, hw, h]
    have := ih { w with reader := s' } rfl
    revert this
    rcases nextCrlfLineLoop s' buf with p | ⟨_ | l, r⟩
    · exact id
    · rintro ⟨k, hk⟩; exact ⟨k + 1, by simp only [steps, hs] at hk ⊢; exact hk⟩
    · rintro ⟨k, hk⟩; exact ⟨k + 1, by simp only [steps, hs] at hk ⊢; exact hk⟩
  | case2 s buf pkt s' h pos hpos s'' hpre =>
    exact ⟨0, by simp [steps, step, hw, h, hpos, hpre]⟩
  | case3 s buf pkt s' h pos hpos hpre =>
    have h2 := (Prep.pollNext_some h).2
    simp [Prep.prepend, h2] at hpre
  | case4 s buf pkt s' h hpos ih =>
    have hs : step C (.read buf, w) = (.read (buf ++ pkt), { w with reader := s' }) := by simp [step, hw, h, hpos]
    have := ih { w with reader := s' } rfl
    revert this
    rcases nextCrlfLineLoop s' (buf ++ pkt) with p | ⟨_ | l, r⟩
    · exact id
    · rintro ⟨k, hk⟩; exact ⟨k + 1, by simp only [steps, hs] at hk ⊢; exact hk⟩
    · rintro ⟨k, hk⟩; exact ⟨k + 1, by simp only [steps, hs] at hk ⊢; exact hk⟩
  | case5 s buf s' h s'' hpre =>
    exact ⟨0, by simp [steps, step, hw, h, hpre]⟩
  | case6 s buf s' h hpre =>
    obtain ⟨h1, _, h2⟩ := Prep.pollNext_none h
    simp [Prep.prepend, h1, h2] at hpre

/-- The future gets from `x` to the end that `res` tells of, or goes on for at least `n` steps. -/
def Ends (C : Config L S U) (n : Nat) (x : State L S U) : Res Unit × World L S U → Prop
  | (.running, w) => ∃ k pc, n ≤ k ∧ steps C k x = (pc, w) ∧ ∀ r, pc ≠ .over r
  | (r, w) => ∃ k, steps C k x = (.over r, w)

theorem Ends.before {n m k : Nat} {x y : State L S U} {res : Res Unit × World L S U} (h : steps C k x = y) (hm : m ≤ k + n)
    (h' : Ends C n y res) : Ends C m x res := by
  obtain ⟨r, w⟩ := res
  subst h
  cases r with
  | ok a => obtain ⟨n, hn⟩ := h'; exact ⟨k + n, by rw [steps_add]; exact hn⟩
  | err => obtain ⟨n, hn⟩ := h'; exact ⟨k + n, by rw [steps_add]; exact hn⟩
  | panic p => obtain ⟨n, hn⟩ := h'; exact ⟨k + n, by rw [steps_add]; exact hn⟩
  | running => obtain ⟨n, pc, h1, h2, h3⟩ := h'; exact ⟨k + n, pc, by omega, by rw [steps_add]; exact h2, h3⟩

theorem ends_loop (fuel : Nat) (n : Nat) (w : World L S U) : Ends C (min n fuel) (.read [], w) (loop C fuel n w) := by
  induction n generalizing w with
  | zero => exact ⟨0, _, by omega, rfl, fun r h => by cases h⟩
  | succ n ih =>
    unfold loop
    have := next_line (C := C) w.reader [] w rfl
    unfold nextLine
    cases hl : nextCrlfLineLoop w.reader [] with
    | error p => rw [hl] at this; exact this.elim
    | ok y =>
      obtain ⟨o, s'⟩ := y
      have hn : nextLine w = (.ok o, { w with reader := s' }) := by simp [nextLine, nextCrlfLine, hl]
      rw [hl] at this
      change Ends C _ _ ((nextLine >>= _) w)
      rw [SM.bind_ok hn]
      cases o with
      | none => obtain ⟨k, hk⟩ := this; exact ⟨k + 1, hk⟩
      | some l =>
        obtain ⟨k, hk⟩ := this
        simp only [emit_bind]
        have hd := leads_line (C := C) fuel l { w with reader := s', trace := w.trace ++ [.line l] }
        rcases hh : handleLine C fuel l { w with reader := s', trace := w.trace ++ [.line l] } with ⟨r, w'⟩
        rw [hh] at hd
        cases r with
        | ok a =>
          obtain ⟨j, hj⟩ := hd
          rw [SM.bind_ok hh]
          exact Ends.before (k := k + 1 + j) (by rw [steps_add, hk, hj]) (by omega) (ih w')
        | err =>
          obtain ⟨j, hj⟩ := hd
          rw [SM.bind_err hh]
          exact ⟨k + 1 + j, by rw [steps_add, hk, hj]⟩
        | panic p =>
          obtain ⟨j, hj⟩ := hd
          rw [SM.bind_panic hh]
          exact ⟨k + 1 + j, by rw [steps_add, hk, hj]⟩
        | running =>
          obtain ⟨j, pc, h1, h2, h3⟩ := hd
          rw [SM.bind_running hh]
          exact ⟨k + 1 + j, pc, by omega, by rw [steps_add, hk, h2], h3⟩

theorem ends_interact (fuel : Nat) (incoming : List (SrcEv Bytes)) (outgoing : BSink) (s : S) (u : U) :
    Ends C fuel (init C incoming outgoing s u) (interact C fuel incoming outgoing s u) := by
  unfold interact session init
  have hd := leads_reply (C := C) fuel (C.welcomeBanner s) (start incoming outgoing s u)
  simp only [sendCfg, SM.bind_assoc', SM.get_bind]
  change Ends C fuel _ ((Server.sendReply (C.welcomeBanner s) >>= _) _)
  rcases hh : Server.sendReply (C.welcomeBanner s) (start incoming outgoing s u) with ⟨r, w'⟩
  rw [hh] at hd
  cases r with
  | ok a =>
    obtain ⟨j, hj⟩ := hd
    rw [SM.bind_ok hh]
    exact Ends.before hj (by omega) (ends_loop fuel fuel w')
  | err => rw [SM.bind_err hh]; exact hd
  | panic p => rw [SM.bind_panic hh]; exact hd
  | running => rw [SM.bind_running hh]; exact hd

theorem steps_over_unique {x : State L S U} {j k : Nat} {r r' : Res Unit} {w w' : World L S U} (hj : steps C j x = (.over r, w))
    (hk : steps C k x = (.over r', w')) : r = r' ∧ w = w' := by
  have h1 : steps C (j + k) x = (.over r, w) := by rw [steps_add, hj, steps_over]
  have h2 : steps C (k + j) x = (.over r', w') := by rw [steps_add, hk, steps_over]
  rw [Nat.add_comm, h2] at h1
  cases h1
  exact ⟨rfl, rfl⟩

/-! ### What grows -/

theorem reply_cases (r : Reply) (after : After L) : ∃ cs, byteChunks r.2 ReplyLine.maxLen = some cs ∧
    (reply r after : PC L S U) = .send r cs after := by
  obtain ⟨cs, hcs, _⟩ := c24_chunks r.2 ReplyLine.maxLen (by decide)
  exact ⟨cs, hcs, by simp [reply, hcs]⟩

/-- `y` has everything on record and on the wire that `x` has. -/
def Grows (x y : State L S U) : Prop := x.2.trace <+: y.2.trace ∧ x.2.writer.out <+: y.2.writer.out

theorem Grows.refl (x : State L S U) : Grows x x := ⟨List.prefix_refl _, List.prefix_refl _⟩

theorem Grows.trans {x y z : State L S U} (h1 : Grows x y) (h2 : Grows y z) : Grows x z := ⟨h1.1.trans h2.1, h1.2.trans h2.2⟩

theorem grows_dispatch (w : World L S U) (l : Bytes) : (dispatch C w l).2.trace = w.trace ∧ (dispatch C w l).2.writer = w.writer := by
  unfold dispatch
  split <;> (try split) <;> (try split) <;> exact ⟨rfl, rfl⟩

theorem grows_resume (w : World L S U) (a : After L) : w.trace <+: (resume C w a).2.trace ∧ (resume C w a).2.writer = w.writer := by
  cases a <;> simp [resume]

theorem grows_step (x : State L S U) : Grows x (step C x) := by
  obtain ⟨pc, w⟩ := x
  cases pc with
  | read buf =>
    simp only [step]
    split
    · exact ⟨List.prefix_refl _, List.prefix_refl _⟩
    · split
      · split
        · rename_i s' _
          obtain ⟨h1, h2⟩ := grows_dispatch (C := C) { w with reader := s', trace := w.trace ++ [.line _] } _
          exact ⟨by rw [h1]; exact List.prefix_append _ _, by rw [h2]; exact List.prefix_refl _⟩
        · exact .refl _
      · exact ⟨List.prefix_refl _, List.prefix_refl _⟩
    · split
      · exact ⟨List.prefix_refl _, List.prefix_refl _⟩
      · exact .refl _
  | send r left a =>
    cases left with
    | nil =>
      simp only [step]
      rcases flush_cases w with ⟨wr, h, ho⟩ | ⟨wr, h, ho⟩ <;> simp only [h]
      · obtain ⟨h1, h2⟩ := grows_resume (C := C) { w with writer := wr, trace := w.trace ++ [.reply r] } a
        refine ⟨(List.prefix_append _ _).trans h1, ?_⟩
        rw [h2]
        show _ <+: wr.out
        rw [ho]; exact List.prefix_refl _
      · exact ⟨List.prefix_append _ _, by show _ <+: wr.out; rw [ho]; exact List.prefix_refl _⟩
    | cons t ts =>
      simp only [step]
      cases ReplyLine.build r.1 (if ts.isEmpty then .yes else .no) t with
      | error e => exact .refl _
      | ok l =>
        simp only
        rcases writeLine_cases l w with ⟨wr, h, ho⟩ | ⟨wr, h, ho⟩ <;> simp only [h]
        · exact ⟨List.prefix_refl _, by show _ <+: wr.out; rw [ho]; exact List.prefix_append _ _⟩
        · refine ⟨List.prefix_append _ _, ?_⟩
          show _ <+: wr.out
          rcases ho with ho | ho <;> rw [ho]
          · exact List.prefix_refl _
          · exact List.prefix_append _ _
  | newMail f => exact ⟨List.prefix_append _ _, List.prefix_refl _⟩
  | filterFrom f => simp only [step]; split <;> exact ⟨List.prefix_append _ _, List.prefix_refl _⟩
  | filterTo t m => simp only [step]; split <;> exact ⟨List.prefix_append _ _, List.prefix_refl _⟩
  | filterData m => simp only [step]; split <;> exact ⟨List.prefix_append _ _, List.prefix_refl _⟩
  | handle act h d =>
    simp only [step]
    split
    · exact .refl _
    · split
      · exact .refl _
      · exact .refl _
    · split
      · exact ⟨List.prefix_append _ _, List.prefix_refl _⟩
      · exact .refl _
  | over r => exact .refl _

theorem grows_steps (n : Nat) (x : State L S U) : Grows x (steps C n x) := by
  induction n generalizing x with
  | zero => exact .refl _
  | succ n ih => exact (grows_step x).trans (ih _)

/-! ### What is on the wire -/

/-- `handle_mail` was called, and nothing happened since. -/
def Handling (w : World L S U) : Prop := ∃ evs m, w.trace = evs ++ [.handleMail m]

/-- Everything that is due was written, and nothing else. -/
def Settled (o : List Bytes) (w : World L S U) : Prop := w.writer.out = o ++ outputOf w.trace

/-- The invariant, `o` being what the writer had taken before `interact`. -/
def Inv (o : List Bytes) : State L S U → Prop
  | (.read _, w) => Settled o w ∧ ∃ evs r, w.trace = evs ++ [.reply r]
  | (.send r left _, w) => ¬ Handling w ∧ ∃ part, w.writer.out = o ++ outputOf w.trace ++ part ∧
      (Sendable r ↔ replyLines r.1 left ≠ none) ∧ ∀ ls, replyLines r.1 left = some ls → part ++ ls.map (·.sendTo) = wire r
  | (.handle _ _ _, w) => Settled o w ∧ Handling w
  | (.over _, w) => Handling w → Settled o w
  | (_, w) => Settled o w ∧ ¬ Handling w

theorem not_handling {w : World L S U} {e : Ev L} {evs : List (Ev L)} (h : w.trace = evs ++ [e]) (he : ∀ m, e ≠ .handleMail m) :
    ¬ Handling w := by
  rintro ⟨evs', m, h'⟩
  rw [h] at h'
  exact he m (by simpa using (List.append_inj' h' rfl).2)

theorem inv_reply {o : List Bytes} (r : Reply) (after : After L) {w : World L S U} (h : Settled o w) (hh : ¬ Handling w) :
    Inv o (reply r after, w) := by
  obtain ⟨cs, hcs, hr⟩ := reply_cases (S := S) (U := U) r after
  rw [hr]
  have hsr : Verif.sendReply r.1 r.2 = replyLines r.1 cs := by simp [Verif.sendReply, hcs]
  refine ⟨hh, [], by rw [List.append_nil]; exact h, ?_, fun ls hls => by simp [wire, hsr, hls]⟩
  rw [← hsr, Ne, c25_panics_iff]
  constructor
  · rintro h ⟨b, hb, hb'⟩; exact hb' (h b hb)
  · intro h b hb
    exact Classical.byContradiction fun h' => h ⟨b, hb, h'⟩

theorem settled_add {o : List Bytes} {w : World L S U} (h : Settled o w) {w' : World L S U} {e : Ev L} (he : ∀ r, e ≠ .reply r)
    (ho : w'.writer = w.writer) (ht : w'.trace = w.trace ++ [e]) : Settled o w' := by
  unfold Settled at *
  rw [ho, ht, h, outputOf_append]
  have : outputOf [e] = [] := by cases e <;> first | rfl | exact absurd rfl (he _)
  rw [this, List.append_nil]

theorem inv_dispatch {o : List Bytes} {w : World L S U} (h : Settled o w) (hh : ¬ Handling w) (l : Bytes) :
    Inv o (dispatch C w l) := by
  unfold dispatch
  split
  · split
    · exact inv_reply _ _ h hh
    · exact ⟨h, hh⟩
  · split
    · exact ⟨h, hh⟩
    · exact inv_reply _ _ h hh
  · split
    · split
      · exact inv_reply _ _ h hh
      · exact ⟨h, hh⟩
    · exact inv_reply _ _ h hh
  · exact inv_reply _ _ h hh
  · exact inv_reply _ _ h hh

theorem inv_step {o : List Bytes} (x : State L S U) (h : Inv o x) : Inv o (step C x) := by
  obtain ⟨pc, w⟩ := x
  cases pc with
  | read buf =>
    obtain ⟨h, evs, r, hr⟩ := h
    simp only [step]
    split
    · exact ⟨h, evs, r, hr⟩
    · split
      · split
        · rename_i s' _
          exact inv_dispatch (w := { w with reader := s', trace := w.trace ++ [.line _] })
            (settled_add (w := w) (e := .line _) h (fun _ h => by cases h) rfl rfl)
            (not_handling (e := .line _) rfl fun _ h => by cases h) _
        · exact fun _ => h
      · exact ⟨h, evs, r, hr⟩
    · split
      · exact fun _ => h
      · exact fun _ => h
  | send r left a =>
    obtain ⟨hh, part, hp, hs, hw⟩ := h
    cases left with
    | nil =>
      have hpart : part = wire r := by simpa using hw [] rfl
      simp only [step]
      rcases flush_cases w with ⟨wr, h, ho⟩ | ⟨wr, h, ho⟩ <;> simp only [h]
      · have : Settled o { w with writer := wr, trace := w.trace ++ [.reply r] } := by
          show wr.out = _
          rw [ho, hp, hpart]; simp
        cases a with
        | next => exact ⟨this, _, _, rfl⟩
        | setMail m => exact ⟨this, _, _, rfl⟩
        | handle m => exact ⟨settled_add this (e := .handleMail m) (fun _ h => by cases h) rfl rfl, _, _, rfl⟩
      · intro hx
        exact absurd hx (not_handling (e := .writeError) rfl fun _ h => by cases h)
    | cons t ts =>
      simp only [step]
      rw [replyLines_cons] at hs hw
      cases hb : ReplyLine.build r.1 (if ts.isEmpty then .yes else .no) t with
      | error e => exact fun hx => absurd hx hh
      | ok l =>
        rw [hb] at hs hw
        simp only [Except.toOption] at hs hw ⊢
        rcases writeLine_cases l w with ⟨wr, h, ho⟩ | ⟨wr, h, ho⟩ <;> simp only [h]
        · refine ⟨hh, part ++ [l.sendTo], by show wr.out = _; rw [ho, hp]; simp, ?_, ?_⟩
          · rw [hs]; simp
          · intro ls hls
            have := hw (l :: ls) (by simp [hls])
            simpa using this
        · intro hx
          exact absurd hx (not_handling (e := .writeError) rfl fun _ h => by cases h)
  | newMail f =>
    exact ⟨settled_add h.1 (e := .newMail) (fun _ h => by cases h) rfl rfl, not_handling (e := .newMail) rfl fun _ h => by cases h⟩
  | filterFrom f =>
    simp only [step]
    split <;> exact inv_reply _ _ (settled_add h.1 (e := .filterFrom _ _ _) (fun _ h => by cases h) rfl rfl)
      (not_handling (e := .filterFrom _ _ _) rfl fun _ h => by cases h)
  | filterTo t m =>
    simp only [step]
    split <;> exact inv_reply _ _ (settled_add h.1 (e := .filterTo _ _ _ _ _) (fun _ h => by cases h) rfl rfl)
      (not_handling (e := .filterTo _ _ _ _ _) rfl fun _ h => by cases h)
  | filterData m =>
    simp only [step]
    split <;> exact inv_reply _ _ (settled_add h.1 (e := .filterData _ _ _) (fun _ h => by cases h) rfl rfl)
      (not_handling (e := .filterData _ _ _) rfl fun _ h => by cases h)
  | handle act hi d =>
    simp only [step]
    split
    · exact h
    · split
      · exact fun _ => h.1
      · exact h
    · split
      · exact inv_reply _ _ (settled_add h.1 (e := .handled _) (fun _ h => by cases h) rfl rfl)
          (not_handling (e := .handled _) rfl fun _ h => by cases h)
      · exact fun _ => h.1
  | over r => exact h

theorem inv_after (incoming : List (SrcEv Bytes)) (outgoing : BSink) (s : S) (u : U) (n : Nat) :
    Inv outgoing.out (after C incoming outgoing s u n) := by
  unfold after
  induction n with
  | zero =>
    refine inv_reply _ _ ?_ ?_
    · show outgoing.out = outgoing.out ++ []
      rw [List.append_nil]
    · rintro ⟨evs, m, h⟩
      exact absurd h (by simp [start])
  | succ n ih => rw [steps_succ]; exact inv_step _ ih

/-! ### A writer that does not fail any more -/

/-- The same state with another future of the writer. -/
def withPlan (x : State L S U) (p : List SendRes) : State L S U :=
  (x.1, { x.2 with writer := { x.2.writer with plan := p } })

theorem withPlan_self (x : State L S U) : withPlan x x.2.writer.plan = x := rfl

theorem dispatch_withPlan (w : World L S U) (p : List SendRes) (l : Bytes) :
    dispatch C { w with writer := { w.writer with plan := p } } l = withPlan (dispatch C w l) p := by
  unfold dispatch withPlan
  split
  · simp only; split <;> rfl
  · simp only; split <;> rfl
  · simp only; split
    · split <;> rfl
    · rfl
  · rfl
  · rfl

theorem resume_withPlan (w : World L S U) (p : List SendRes) (a : After L) :
    resume C { w with writer := { w.writer with plan := p } } a = withPlan (resume C w a) p := by
  cases a <;> rfl

/-- How a step uses the future of the writer. -/
def Uses (C : Config L S U) (n : Nat) (x y : State L S U) : Prop :=
  ∃ q, x.2.writer.plan = q ++ y.2.writer.plan ∧ ∀ p, p <+: y.2.writer.plan → steps C n (withPlan x (q ++ p)) = withPlan y p

theorem uses_step (x : State L S U) : Uses C 1 x (step C x) := by
  have quiet : (∀ p, (step C (withPlan x p)) = withPlan (step C x) p) → (step C x).2.writer.plan = x.2.writer.plan →
      Uses C 1 x (step C x) := fun h1 h2 => ⟨[], by rw [h2]; rfl, fun p _ => h1 p⟩
  obtain ⟨pc, w⟩ := x
  cases pc with
  | read buf =>
    apply quiet
    · intro p
      simp only [step, withPlan]
      split
      · rfl
      · split
        · split
          · rename_i s' _
            exact dispatch_withPlan (C := C) { w with reader := s', trace := w.trace ++ [.line _] } p _
          · rfl
        · rfl
      · split
        · rfl
        · rfl
    · simp only [step]
      split
      · rfl
      · split
        · split
          · rw [(grows_dispatch _ _).2]
          · rfl
        · rfl
      · split
        · rfl
        · rfl
  | send r left a =>
    obtain ⟨rd, ⟨out, plan⟩, s, u, m, tr⟩ := w
    cases left with
    | nil =>
      match plan with
      | [] =>
        refine ⟨[], ?_, ?_⟩
        · show [] = (resume C _ a).2.writer.plan
          rw [(grows_resume _ _).2]
        · intro p hp
          have hp0 : (step C (PC.send r [] a, (⟨rd, ⟨out, []⟩, s, u, m, tr⟩ : World L S U))).2.writer.plan = [] := by
            show (resume C _ a).2.writer.plan = []
            rw [(grows_resume _ _).2]
          rw [hp0, List.prefix_nil] at hp
          subst hp
          exact resume_withPlan (C := C) ⟨rd, ⟨out, []⟩, s, u, m, tr ++ [.reply r]⟩ [] a
      | .ok :: p =>
        refine ⟨[.ok], ?_, ?_⟩
        · show _ = [.ok] ++ (resume C _ a).2.writer.plan
          rw [(grows_resume _ _).2]
          rfl
        · intro q _
          exact resume_withPlan (C := C) ⟨rd, ⟨out, p⟩, s, u, m, tr ++ [.reply r]⟩ q a
      | .errDropped :: p => exact ⟨[.errDropped], rfl, fun q _ => rfl⟩
      | .errAccepted :: p => exact ⟨[.errAccepted], rfl, fun q _ => rfl⟩
    | cons t ts =>
      cases hb : ReplyLine.build r.1 (if ts.isEmpty then .yes else .no) t with
      | error e =>
        apply quiet
        · intro p; simp only [step, withPlan, hb]
        · simp only [step, hb]
      | ok l =>
        have h0 : ¬ l.byteLen < l.sendTo.length := by rw [c19_byte_len]; omega
        match plan with
        | [] =>
          refine ⟨[], ?_, ?_⟩
          · simp only [step, hb, writeLine, if_neg h0, BSink.send, if_true, Bool.false_eq_true, if_false, List.nil_append, List.cons_append]
          · intro p hp
            simp only [step, hb, writeLine, if_neg h0, BSink.send, if_true, List.prefix_nil] at hp
            subst hp
            simp only [steps, step, hb, writeLine, if_neg h0, BSink.send, withPlan, if_true, Bool.false_eq_true, if_false, List.nil_append, List.cons_append]
        | .ok :: p =>
          exact ⟨[.ok], by simp only [step, hb, writeLine, if_neg h0, BSink.send, if_true, Bool.false_eq_true, if_false, List.nil_append, List.cons_append], fun q _ => by
            simp only [steps, step, hb, writeLine, if_neg h0, BSink.send, withPlan, if_true, Bool.false_eq_true, if_false, List.nil_append, List.cons_append]⟩
        | .errDropped :: p =>
          exact ⟨[.errDropped], by simp only [step, hb, writeLine, if_neg h0, BSink.send, if_true, Bool.false_eq_true, if_false, List.nil_append, List.cons_append], fun q _ => by
            simp only [steps, step, hb, writeLine, if_neg h0, BSink.send, withPlan, if_true, Bool.false_eq_true, if_false, List.nil_append, List.cons_append]⟩
        | .errAccepted :: p =>
          exact ⟨[.errAccepted], by simp only [step, hb, writeLine, if_neg h0, BSink.send, if_true, Bool.false_eq_true, if_false, List.nil_append, List.cons_append], fun q _ => by
            simp only [steps, step, hb, writeLine, if_neg h0, BSink.send, withPlan, if_true, Bool.false_eq_true, if_false, List.nil_append, List.cons_append]⟩
  | newMail f => exact quiet (fun p => rfl) rfl
  | filterFrom f =>
    apply quiet
    · intro p; simp only [step, withPlan]; split <;> rfl
    · simp only [step]; split <;> rfl
  | filterTo t m =>
    apply quiet
    · intro p; simp only [step, withPlan]; split <;> rfl
    · simp only [step]; split <;> rfl
  | filterData m =>
    apply quiet
    · intro p; simp only [step, withPlan]; split <;> rfl
    · simp only [step]; split <;> rfl
  | handle act hi d =>
    apply quiet
    · intro p
      simp only [step, withPlan]
      split
      · rfl
      · split <;> rfl
      · split <;> rfl
    · simp only [step]
      split
      · rfl
      · split <;> rfl
      · split <;> rfl
  | over r => exact quiet (fun p => rfl) rfl

theorem uses_steps (n : Nat) (x : State L S U) : Uses C n x (steps C n x) := by
  induction n generalizing x with
  | zero => exact ⟨[], rfl, fun p _ => rfl⟩
  | succ n ih =>
    obtain ⟨q1, h1, h2⟩ := uses_step (C := C) x
    obtain ⟨q2, h3, h4⟩ := ih (step C x)
    refine ⟨q1 ++ q2, ?_, ?_⟩
    · simp only [steps]; rw [h1, h3, List.append_assoc]
    · intro p hp
      simp only [steps] at hp ⊢
      rw [List.append_assoc]
      have := h2 (q2 ++ p) (by rw [h3]; exact (List.prefix_append_right_inj q2).2 hp)
      rw [steps_one] at this
      rw [this]
      exact h4 p hp

end Verif.Task
