import Verif.Spec.Await
import Verif.Proofs.Task
import Verif.Proofs.HandlerRuns
/-
Every state of the future of `interact` is one of the reference session.
-/
namespace Verif.Task
open Server Spec
variable {L : IpLib} {S U : Type} {C : Config L S U} {H : Spec.Handling L S U} {s0 : S} {u0 : U} {input : Bytes}

/-- The line `l`, after which `t` comes, was read in the state `st`, and `cur` has happened since. -/
def Ctx (C : Config L S U) (H : Spec.Handling L S U) (s0 : S) (u0 : U) (input : Bytes) (st : SState L S U) (l t : Bytes)
    (cur : List (Ev L)) (w : World L S U) : Prop :=
  NoCrlf l ∧ ∃ evs, Dialogue C H ⟨s0, u0, none⟩ input evs st (l ++ crlf ++ t) ∧
    w.trace = .reply (C.welcomeBanner s0) :: evs ++ .line (l ++ crlf) :: cur

/-- The handler `act`, given the stream of a message that begins where `rd` reads, has got as far as having seen `h`, and its stream
is `d` now. -/
inductive Reaches (act : List HObs → HAct S U) (rd : Prep Bytes) : List HObs → DStream → Prop
  | new : Reaches act rd [] (DStream.new rd)
  | poll {h d} : Reaches act rd h d → act h = .poll → Reaches act rd (h ++ [.polled d.pollNext.1]) d.pollNext.2
  | complete {h d ok d'} : Reaches act rd h d → act h = .complete → d.complete = .ok (ok, d') →
      Reaches act rd (h ++ [.completed ok]) d'

theorem Reaches.run {act : List HObs → HAct S U} {rd : Prep Bytes} {h : List HObs} {d : DStream} (k : Reaches act rd h d) (n : Nat) :
    runHandler act (h.length + n) [] (DStream.new rd) = runHandler act n h d := by
  induction k generalizing n with
  | new => simp
  | @poll h d _ ha ih =>
    have e : runHandler act (n + 1) h d = runHandler act n (h ++ [.polled d.pollNext.1]) d.pollNext.2 := by simp [runHandler, ha]
    rw [← e, ← ih (n + 1)]
    congr 1
    simp only [List.length_append, List.length_cons, List.length_nil]; omega
  | @complete h d ok d' _ ha hc ih =>
    have e : runHandler act (n + 1) h d = runHandler act n (h ++ [.completed ok]) d' := by simp [runHandler, ha, hc]
    rw [← e, ← ih (n + 1)]
    congr 1
    simp only [List.length_append, List.length_cons, List.length_nil]; omega

/-- Where the exchange is, at a place the future is suspended at. -/
def Mid (C : Config L S U) (H : Spec.Handling L S U) (c : Option (Command L)) (st : SState L S U) (t : Bytes) (cur : List (Ev L))
    (w : World L S U) : PC L S U → Prop
  | .read _ => False
  | .newMail f => ∃ p, c = some (.mail f p) ∧ st = ⟨w.cfg, w.conn, none⟩ ∧ w.mail = none ∧ w.reader.bytes = t ∧ cur = []
  | .filterFrom f => ∃ p s, c = some (.mail f p) ∧ st = ⟨s, w.conn, none⟩ ∧ w.cfg = C.newMail s ∧ w.mail = none ∧
      w.reader.bytes = t ∧ cur = [.newMail]
  | .filterTo a m => ∃ p, c = some (.rcpt a p) ∧ st = ⟨w.cfg, w.conn, some m⟩ ∧ w.reader.bytes = t ∧ cur = []
  | .filterData m => c = some .data ∧ st = ⟨w.cfg, w.conn, some m⟩ ∧ m.to ≠ [] ∧ w.mail = none ∧ w.reader.bytes = t ∧ cur = []
  | .send r _ .next => Exchange C H c st t (cur ++ [.reply r]) ⟨w.cfg, w.conn, w.mail⟩ w.reader.bytes
  | .send r _ (.setMail m) => Exchange C H c st t (cur ++ [.reply r]) ⟨w.cfg, w.conn, m⟩ w.reader.bytes
  | .send r _ (.handle m') => ∃ s u m, c = some .data ∧ st = ⟨s, u, some m⟩ ∧ m.to ≠ [] ∧
      C.filterData s u m = (.accept, m', w.cfg, w.conn) ∧ w.mail = none ∧ w.reader.bytes = t ∧
      cur = [.filterData m m' .accept] ∧ r = C.dataOkay w.cfg
  | .handle act h d => ∃ s u m m' rd, c = some .data ∧ st = ⟨s, u, some m⟩ ∧ m.to ≠ [] ∧
      C.filterData s u m = (.accept, m', w.cfg, w.conn) ∧ w.mail = none ∧ rd.bytes = t ∧
      cur = [.filterData m m' .accept, .reply (C.dataOkay w.cfg), .handleMail m'] ∧ act = C.handleMail w.cfg w.conn m' ∧
      Reaches act rd h d
  | .over _ => False

/-- What holds in every state. -/
def At (C : Config L S U) (H : Spec.Handling L S U) (s0 : S) (u0 : U) (input : Bytes) : State L S U → Prop
  | (.read buf, w) => NoCrlf buf ∧ ∃ evs, Dialogue C H ⟨s0, u0, none⟩ input evs ⟨w.cfg, w.conn, w.mail⟩ (buf ++ w.reader.bytes) ∧
      w.trace = .reply (C.welcomeBanner s0) :: evs
  | (.over _, w) => Moment C H s0 u0 input w.trace w.cfg w.conn
  | (pc, w) => (∃ st l t cur, Ctx C H s0 u0 input st l t cur w ∧ Mid C H (commandOn (l ++ crlf)) st t cur w pc) ∨
      ∃ left, pc = .send (C.welcomeBanner s0) left .next ∧ w.trace = [] ∧ w.cfg = s0 ∧ w.conn = u0 ∧ w.mail = none ∧
        w.reader.bytes = input

theorem At.of_mid {pc : PC L S U} {w : World L S U} {st l t cur} (h : Ctx C H s0 u0 input st l t cur w)
    (h' : Mid C H (commandOn (l ++ crlf)) st t cur w pc) : At C H s0 u0 input (pc, w) := by
  cases pc with
  | read _ => exact h'.elim
  | over _ => exact h'.elim
  | newMail f => exact .inl ⟨_, _, _, _, h, h'⟩
  | filterFrom f => exact .inl ⟨_, _, _, _, h, h'⟩
  | filterTo a m => exact .inl ⟨_, _, _, _, h, h'⟩
  | filterData m => exact .inl ⟨_, _, _, _, h, h'⟩
  | send r left a => exact .inl ⟨_, _, _, _, h, h'⟩
  | handle act hh d => exact .inl ⟨_, _, _, _, h, h'⟩

/-- Every place in an exchange is a moment of the session. -/
theorem Mid.underway {c : Option (Command L)} {st : SState L S U} {t cur} {w : World L S U} {pc : PC L S U}
    (h : Mid C H c st t cur w pc) : Underway C H c st t cur w.cfg w.conn := by
  cases pc with
  | read _ => exact h.elim
  | over _ => exact h.elim
  | newMail f => obtain ⟨p, rfl, rfl, _, _, rfl⟩ := h; exact .read
  | filterFrom f =>
    obtain ⟨p, s, rfl, rfl, h2, _, _, rfl⟩ := h
    rw [h2]; exact .newMail
  | filterTo a m => obtain ⟨p, rfl, rfl, _, rfl⟩ := h; exact .read
  | filterData m => obtain ⟨rfl, rfl, _, _, _, rfl⟩ := h; exact .read
  | send r left a =>
    cases a with
    | next => exact .answering (st' := ⟨w.cfg, w.conn, w.mail⟩) h
    | setMail m => exact .answering (st' := ⟨w.cfg, w.conn, m⟩) h
    | handle m =>
      obtain ⟨s, u, m0, rfl, rfl, h1, h2, _, _, rfl, _⟩ := h
      exact .data h1 h2
  | handle act hh d =>
    obtain ⟨s, u, m, m', rd, rfl, rfl, h1, h2, _, _, rfl, _⟩ := h
    exact .handling h1 h2

theorem Ctx.moment {st : SState L S U} {l t cur} {w : World L S U} (h : Ctx C H s0 u0 input st l t cur w)
    (h' : Underway C H (commandOn (l ++ crlf)) st t cur w.cfg w.conn) : Moment C H s0 u0 input w.trace w.cfg w.conn := by
  obtain ⟨h1, evs, h2, h3⟩ := h
  rw [h3]
  have := Moment.within h2 h1 h' (.inl rfl)
  rwa [List.append_nil] at this

theorem Ctx.failed {st : SState L S U} {l t cur} {w w' : World L S U} (h : Ctx C H s0 u0 input st l t cur w)
    (h' : Underway C H (commandOn (l ++ crlf)) st t cur w'.cfg w'.conn) (ht : w'.trace = w.trace ++ [.writeError]) :
    Moment C H s0 u0 input w'.trace w'.cfg w'.conn := by
  obtain ⟨h1, evs, h2, h3⟩ := h
  rw [ht, h3]
  exact Moment.within h2 h1 h' (.inr rfl)

/-- What the invariant says about what can be seen. -/
theorem At.moment {x : State L S U} (h : At C H s0 u0 input x) : Moment C H s0 u0 input x.2.trace x.2.cfg x.2.conn := by
  obtain ⟨pc, w⟩ := x
  have gen : ((∃ st l t cur, Ctx C H s0 u0 input st l t cur w ∧ Mid C H (commandOn (l ++ crlf)) st t cur w pc) ∨
      ∃ left, pc = .send (C.welcomeBanner s0) left .next ∧ w.trace = [] ∧ w.cfg = s0 ∧ w.conn = u0 ∧ w.mail = none ∧
        w.reader.bytes = input) → Moment C H s0 u0 input w.trace w.cfg w.conn := by
    rintro (⟨st, l, t, cur, h1, h2⟩ | ⟨left, _, h1, h2, h3, _⟩)
    · exact h1.moment h2.underway
    · rw [h1, h2, h3]; exact .greeting (.inl rfl)
  cases pc with
  | read buf =>
    obtain ⟨_, evs, h1, h2⟩ := h
    show Moment C H s0 u0 input w.trace w.cfg w.conn
    rw [h2]
    exact Moment.between (st := ⟨w.cfg, w.conn, w.mail⟩) h1
  | over r => exact h
  | newMail f => exact gen h
  | filterFrom f => exact gen h
  | filterTo a m => exact gen h
  | filterData m => exact gen h
  | send r left a => exact gen h
  | handle act hh d => exact gen h

/-- A reply is about to be sent. -/
theorem at_reply {r : Reply} {a : After L} {w : World L S U} {st l t cur} (h : Ctx C H s0 u0 input st l t cur w)
    (h' : ∀ left, Mid C H (commandOn (l ++ crlf)) st t cur w (.send r left a)) : At C H s0 u0 input (reply r a, w) := by
  obtain ⟨cs, _, hr⟩ := reply_cases (S := S) (U := U) r a
  rw [hr]
  exact At.of_mid h (h' _)

theorem at_dispatch {w : World L S U} {l : Bytes} (h : Ctx C H s0 u0 input ⟨w.cfg, w.conn, w.mail⟩ l w.reader.bytes [] w) :
    At C H s0 u0 input (dispatch C w (l ++ crlf)) := by
  unfold dispatch
  split
  · rename_i f p hp
    have hc : (commandOn (l ++ crlf) : Option (Command L)) = some (.mail f p) := by simp [commandOn, hp, Except.toOption]
    obtain ⟨rd, wr, s, u, m, tr⟩ := w
    cases m with
    | some m =>
      exact at_reply h fun left => by show Exchange _ _ _ _ _ _ _ _; rw [hc]; exact .mailAgain
    | none => exact At.of_mid h ⟨p, hc, rfl, rfl, rfl, rfl⟩
  · rename_i a p hp
    have hc : (commandOn (l ++ crlf) : Option (Command L)) = some (.rcpt a p) := by simp [commandOn, hp, Except.toOption]
    obtain ⟨rd, wr, s, u, m, tr⟩ := w
    cases m with
    | some m => exact At.of_mid h ⟨p, hc, rfl, rfl, rfl⟩
    | none => exact at_reply h fun left => by show Exchange _ _ _ _ _ _ _ _; rw [hc]; exact .rcptEarly
  · rename_i hp
    have hc : (commandOn (l ++ crlf) : Option (Command L)) = some .data := by simp [commandOn, hp, Except.toOption]
    obtain ⟨rd, wr, s, u, m, tr⟩ := w
    cases m with
    | none => exact at_reply h fun left => by show Exchange _ _ _ _ _ _ _ _; rw [hc]; exact .dataEarly
    | some m =>
      obtain ⟨f, to⟩ := m
      simp only
      split
      · rename_i he
        have : to = [] := by simpa using he
        subst this
        exact at_reply (w := ⟨rd, wr, s, u, none, tr⟩) h fun left => by
          show Exchange _ _ _ _ _ _ _ _; rw [hc]; exact .dataNoRcpt
      · rename_i he
        exact At.of_mid (w := ⟨rd, wr, s, u, none, tr⟩) h ⟨hc, rfl, by simpa using he, rfl, rfl, rfl⟩
  · rename_i c hn1 hn2 hn3 hp
    have hc : (commandOn (l ++ crlf) : Option (Command L)) = some c := by simp [commandOn, hp, Except.toOption]
    refine at_reply h fun left => ?_
    show Exchange _ _ _ _ _ _ _ _
    rw [hc]
    refine .unimplemented ?_
    intro hi
    cases c with
    | mail f p => exact hn1 f p rfl
    | rcpt a p => exact hn2 a p rfl
    | data => exact hn3 rfl
    | _ => exact hi
  · rename_i e hp
    have hc : (commandOn (l ++ crlf) : Option (Command L)) = none := by simp [commandOn, hp, Except.toOption]
    exact at_reply h fun left => by show Exchange _ _ _ _ _ _ _ _; rw [hc]; exact .unrecognized

theorem Ctx.add {st : SState L S U} {l t cur} {w w' : World L S U} (h : Ctx C H s0 u0 input st l t cur w) (e : Ev L)
    (ht : w'.trace = w.trace ++ [e]) : Ctx C H s0 u0 input st l t (cur ++ [e]) w' := by
  obtain ⟨h1, evs, h2, h3⟩ := h
  exact ⟨h1, evs, h2, by rw [ht, h3]; simp⟩

/-- The exchange is over. -/
theorem Ctx.done {st st' : SState L S U} {l t cur b} {r : Reply} {w w' : World L S U} (h : Ctx C H s0 u0 input st l t cur w)
    (hx : Exchange C H (commandOn (l ++ crlf)) st t (cur ++ [.reply r]) st' b) (h1 : st' = ⟨w'.cfg, w'.conn, w'.mail⟩)
    (h2 : w'.reader.bytes = b) (ht : w'.trace = w.trace ++ [.reply r]) : At C H s0 u0 input (.read [], w') := by
  obtain ⟨h3, evs, h4, h5⟩ := h
  subst h1 h2
  refine ⟨by simp [NoCrlf], _, h4.append (.cons h3 hx .nil), ?_⟩
  rw [ht, h5]
  simp

theorem at_step (hH : ∀ fuel s u m b d s' u' b', Handles C fuel s u m b d s' u' b' → H s u m b d s' u' b') (x : State L S U)
    (h : At C H s0 u0 input x) : At C H s0 u0 input (step C x) := by
  have hm := h.moment
  obtain ⟨pc, w⟩ := x
  cases pc with
  | over r => exact h
  | read buf =>
    obtain ⟨hb, evs, hd, ht⟩ := h
    simp only [step]
    split
    · rename_i s' hp
      obtain ⟨h1, h2⟩ := Prep.pollNext_pending hp
      have hbytes : w.reader.bytes = s'.bytes := by simp [Prep.bytes, h1]
      exact ⟨hb, evs, by rw [hbytes] at hd; exact hd, ht⟩
    · rename_i pkt s' hp
      obtain ⟨h1, h2⟩ := Prep.pollNext_some hp
      have hbytes : w.reader.bytes = pkt ++ s'.bytes := by simp [Prep.bytes, h1]
      rw [hbytes, ← List.append_assoc] at hd
      rcases crlf_split (buf ++ pkt) with hn | ⟨l, t, hl, he⟩
      · rw [findCrlf_none hn]
        exact ⟨hn, evs, hd, ht⟩
      · rw [he, findCrlf_some hl]
        have htake : (l ++ crlf ++ t).take (l.length + 2) = l ++ crlf := List.take_left' (by simp)
        have hdrop : (l ++ crlf ++ t).drop (l.length + 2) = t := List.drop_left' (by simp)
        simp only [htake, hdrop, Prep.prepend, h2]
        have hb'' : (Prep.bytes { s' with pre := some t }) = t ++ s'.bytes := by simp [Prep.bytes, Prep.evs, h2]
        refine at_dispatch (w := { w with reader := _, trace := _ }) ⟨hl, evs, ?_, by rw [ht]⟩
        show Dialogue C H _ _ _ _ (l ++ crlf ++ Prep.bytes { s' with pre := some t })
        rw [hb'', ← List.append_assoc, ← he]
        exact hd
    · rename_i s' hp
      obtain ⟨rfl, h1, h2⟩ := Prep.pollNext_none hp
      simp only [Prep.prepend, h2]
      show Moment C H s0 u0 input w.trace w.cfg w.conn
      exact hm
  | newMail f =>
    rcases h with ⟨st, l, t, cur, h1, p, h2, rfl, h3, h4, rfl⟩ | ⟨left, h, _⟩
    · exact At.of_mid (h1.add .newMail rfl) ⟨p, _, h2, rfl, rfl, h3, h4, rfl⟩
    · cases h
  | filterFrom f =>
    rcases h with ⟨st, l, t, cur, h1, p, s, h2, rfl, h3, h4, h5, rfl⟩ | ⟨left, h, _⟩
    · simp only [step]
      split
      · rename_i f' s' u' hf
        rw [h3] at hf
        refine at_reply (h1.add (.filterFrom f f' .accept) rfl) fun left => ?_
        show Exchange _ _ _ _ _ _ _ _
        rw [h2, ← h5]
        exact .mailAccepted hf
      · rename_i r f' s' u' hf
        rw [h3] at hf
        refine at_reply (h1.add (.filterFrom f f' (.reject r)) rfl) fun left => ?_
        show Exchange _ _ _ _ _ _ _ _
        rw [h2, ← h5, h4]
        exact .mailRefused hf
    · cases h
  | filterTo a m =>
    rcases h with ⟨st, l, t, cur, h1, p, h2, rfl, h5, rfl⟩ | ⟨left, h, _⟩
    · simp only [step]
      split
      · rename_i t' m' s' u' hf
        refine at_reply (h1.add (.filterTo a t' m m' .accept) rfl) fun left => ?_
        show Exchange _ _ _ _ _ _ _ _
        rw [h2, ← h5]
        exact .rcptAccepted hf
      · rename_i r t' m' s' u' hf
        refine at_reply (h1.add (.filterTo a t' m m' (.reject r)) rfl) fun left => ?_
        show Exchange _ _ _ _ _ _ _ _
        rw [h2, ← h5]
        exact .rcptRefused hf
    · cases h
  | filterData m =>
    rcases h with ⟨st, l, t, cur, h1, h2, rfl, h3, h4, h5, rfl⟩ | ⟨left, h, _⟩
    · simp only [step]
      split
      · rename_i m' s' u' hf
        exact at_reply (h1.add (.filterData m m' .accept) rfl) fun left => ⟨_, _, m, h2, rfl, h3, hf, h4, h5, rfl, rfl⟩
      · rename_i r m' s' u' hf
        refine at_reply (h1.add (.filterData m m' (.reject r)) rfl) fun left => ?_
        show Exchange _ _ _ _ _ _ _ _
        rw [h2, ← h5]
        exact .dataRefused h3 hf
    · cases h
  | send r left a =>
    cases left with
    | nil =>
      simp only [step]
      rcases flush_cases w with ⟨wr, hf, ho⟩ | ⟨wr, hf, ho⟩ <;> simp only [hf]
      · rcases h with ⟨st, l, t, cur, h1, h2⟩ | ⟨left, h, h1, rfl, rfl, h2, rfl⟩
        · cases a with
          | next => exact h1.done h2 rfl rfl rfl
          | setMail m => exact h1.done h2 rfl rfl rfl
          | handle m' =>
            obtain ⟨s, u, m, k1, k2, k3, k4, k5, k6, rfl, rfl⟩ := h2
            have h3 := (h1.add (w' := { w with writer := wr, trace := w.trace ++ [.reply (C.dataOkay w.cfg)] })
              (.reply (C.dataOkay w.cfg)) rfl)
            exact At.of_mid (h3.add (.handleMail m') rfl)
              ⟨s, u, m, m', w.reader, k1, k2, k3, k4, k5, k6, rfl, rfl, .new⟩
        · cases h
          refine ⟨by simp [NoCrlf], [], ?_, by simp [h1]⟩
          show Dialogue C H _ _ _ ⟨w.cfg, w.conn, w.mail⟩ ([] ++ w.reader.bytes)
          rw [h2]
          exact .nil
      · rcases h with ⟨st, l, t, cur, h1, h2⟩ | ⟨left, h, h1, rfl, rfl, h2, rfl⟩
        · exact h1.failed (w' := { w with writer := wr, trace := w.trace ++ [.writeError] }) h2.underway rfl
        · show Moment C H _ _ _ (w.trace ++ [.writeError]) _ _
          rw [h1]
          exact .greeting (.inr rfl)
    | cons t ts =>
      simp only [step]
      cases hb : ReplyLine.build r.1 (if ts.isEmpty then .yes else .no) t with
      | error e => exact hm
      | ok ln =>
        simp only
        rcases writeLine_cases ln w with ⟨wr, hf, ho⟩ | ⟨wr, hf, ho⟩ <;> simp only [hf]
        · rcases h with ⟨st, l, t, cur, h1, h2⟩ | ⟨left, h, h1⟩
          · refine At.of_mid (w := { w with writer := wr }) (st := st) (l := l) (t := t) (cur := cur) h1 ?_
            cases a with
            | next => exact h2
            | setMail m => exact h2
            | handle m => exact h2
          · cases h
            exact .inr ⟨ts, rfl, h1⟩
        · rcases h with ⟨st, l, t, cur, h1, h2⟩ | ⟨left, h, h1, rfl, rfl, h2, rfl⟩
          · exact h1.failed (w' := { w with writer := wr, trace := w.trace ++ [.writeError] }) h2.underway rfl
          · show Moment C H _ _ _ (w.trace ++ [.writeError]) _ _
            rw [h1]
            exact .greeting (.inr rfl)
  | handle act hh d =>
    rcases h with ⟨st, l, t, cur, h1, s, u, m, m', rd, k1, rfl, k3, k4, k5, rfl, rfl, k8, k9⟩ | ⟨left, h, _⟩
    · simp only [step]
      split
      · rename_i ha
        exact At.of_mid h1 ⟨s, u, m, m', rd, k1, rfl, k3, k4, k5, rfl, rfl, k8, k9.poll ha⟩
      · rename_i ha
        split
        · exact hm
        · rename_i ok d' hc
          exact At.of_mid h1 ⟨s, u, m, m', rd, k1, rfl, k3, k4, k5, rfl, rfl, k8, k9.complete ha hc⟩
      · rename_i dec s' u' ha
        split
        · rename_i hd
          have hrun : runHandler act (hh.length + 1) [] (DStream.new rd) = .returned dec s' u' d := by
            rw [k9.run 1]; simp [runHandler, ha]
          have hh' := hH _ _ _ _ _ _ _ _ _ ⟨rd, d, rfl, by rw [← k8]; exact hrun, hd, rfl⟩
          refine at_reply (h1.add (.handled dec) rfl) fun left => ?_
          show Exchange _ _ _ _ _ _ _ _
          rw [k1]
          have := Exchange.dataHandled k3 k4 hh'
          simp only [k5]
          cases dec <;> exact this
        · exact hm
    · cases h

theorem at_after (hH : ∀ fuel s u m b d s' u' b', Handles C fuel s u m b d s' u' b' → H s u m b d s' u' b')
    (incoming : List (SrcEv Bytes)) (outgoing : BSink) (s : S) (u : U) (n : Nat) :
    At C H s u (evBytes incoming) (after C incoming outgoing s u n) := by
  unfold after
  induction n with
  | zero =>
    obtain ⟨cs, _, hr⟩ := reply_cases (S := S) (U := U) (C.welcomeBanner s) (.next : After L)
    show At C H s u (evBytes incoming) (init C incoming outgoing s u)
    unfold init
    rw [hr]
    exact .inr ⟨cs, rfl, rfl, rfl, rfl, rfl, start_bytes incoming outgoing s u⟩
  | succ n ih => rw [steps_succ]; exact at_step hH _ ih

end Verif.Task
