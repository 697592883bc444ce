import Verif.Spec.System
import Verif.Props.Await
import Verif.Props.Queue
import Verif.Props.QueueLive
/-
C104: a server that puts the mails it accepts into the queue never loses one it has acknowledged.
-/
namespace Verif
open Spec Server Ex
open Queue (MailId upd Has Reach Always)
variable {L : IpLib} {S U : Type}

private theorem upd_same {α : Type} (f : Nat → α) (k : Nat) (v : α) : upd f k v k = v := by simp [upd]

private theorem upd_other {α : Type} (f : Nat → α) {k j : Nat} (v : α) (h : j ≠ k) : upd f k v j = f j := by simp [upd, h]

private theorem enqueue_step {q q' : Queue.St} {m : MailId} (h : Queue.step q (.enqueue m) = some q') :
    q.store m = .absent ∧ q'.log = q.log ++ [⟨q.now, .enqueued m⟩] := by
  simp only [Queue.step] at h
  split at h
  · rename_i h0
    cases h
    exact ⟨h0, rfl⟩
  · cases h

private theorem log_step {q q' : Queue.St} {a : Queue.Act} (h : Queue.step q a = some q') {ev : Queue.Ev} (he : Has q.log ev) :
    Has q'.log ev := by
  obtain ⟨new, hn⟩ := (Queue.step_cases h).log
  rw [hn]
  exact he.append

private theorem enqueued_back {log new : List Queue.Entry} {t : Nat} {m k : MailId} (hn : new = log ++ [⟨t, .enqueued m⟩])
    (hk : Has new (.enqueued k)) (h : k ≠ m) : Has log (.enqueued k) := by
  obtain ⟨e, he, hv⟩ := hk
  rw [hn] at he
  rcases List.mem_append.1 he with he | he
  · exact ⟨e, he, hv⟩
  · rw [List.mem_singleton.1 he] at hv
    cases hv
    exact absurd rfl h

/-- Only `enqueue` brings a new mail. -/
private theorem not_enqueued {q q' : Queue.St} {a : Queue.Act} (ha : ∀ m, a ≠ .enqueue m) (h : Queue.step q a = some q') {k : MailId}
    (hk : Has q'.log (.enqueued k)) : Has q.log (.enqueued k) := by
  cases Queue.step_cases h with
  | tick => exact hk
  | enqueue => exact absurd rfl (ha _)
  | answer h1 he =>
    obtain ⟨e1, e2, e3, e4, e5⟩ := he.same
    rw [Queue.note_log] at hk
    simp only [e3] at hk
    exact hk.before (by simp)
  | list | find | spawn =>
    rw [Queue.spawn_log, Queue.note_log] at hk
    exact (hk.before (by simp)).before (by simp)
  | _ => rw [Queue.note_log] at hk; exact hk.before (by simp)

/-- What is taken out of the queue was put in. -/
private theorem taken {P : Queue.St → Queue.Act → Prop} {q : Queue.St} (h : Reach P q) {r i : Nat} {m : MailId} {c : Queue.Claim}
    (hk : Has q.log (.answer r i (.sendStart m) (.inflight c))) : Has q.log (.enqueued m) := by
  induction h with
  | init => obtain ⟨e, he, _⟩ := hk; cases he
  | @step s s' a hs hp hst ih =>
    by_cases hold : Has s.log (.answer r i (.sendStart m) (.inflight c))
    · exact log_step hst (ih hold)
    · refine log_step hst ?_
      cases Queue.step_cases hst with
      | tick => exact absurd hk hold
      | @answer tid r' o a eff s1 h1 he =>
        obtain ⟨e1, e2, e3, e4, e5⟩ := he.same
        rw [Queue.note_log] at hk
        simp only [e3] at hk
        have : (o, a) = (.sendStart m, .inflight c) := by
          apply Classical.byContradiction
          intro hne
          exact hold (hk.before (by simp; intro _ _ h3 h4; exact hne (by rw [h3, h4])))
        cases this
        cases he with
        | take h2 h3 => exact hs.kept.back m (by rw [h2]; simp)
      | list | find | spawn =>
        rw [Queue.spawn_log, Queue.note_log] at hk
        exact absurd ((hk.before (by simp)).before (by simp)) hold
      | _ => rw [Queue.note_log] at hk; exact absurd (hk.before (by simp)) hold

/-- What holds in every state of the system. -/
private structure Inv (C : Config L S U) (box : S → List (Stored L)) (peer : Nat → Peer S U) (x : Sys L) : Prop where
  reach : Reach Always x.queue
  stored : ∀ i, ∃ stored, box ((peer i).at C (x.answers i)).cfg = box (peer i).cfg ++ stored ∧
    (x.names i).map x.content = stored.map some
  enq : ∀ i, ∀ m ∈ x.names i, Has x.queue.log (.enqueued m)
  nodup : ∀ i, (x.names i).Nodup
  apart : ∀ i j m, m ∈ x.names i → m ∈ x.names j → i = j
  content : ∀ m y, x.content m = some y → Has x.queue.log (.enqueued m)
  whose : ∀ m, Has x.queue.log (.enqueued m) → x.content m ≠ none ∧ (m ∈ x.others ∨ ∃ i, m ∈ x.names i)

private theorem map_upd {f : MailId → Option (Stored L)} {m : MailId} {v : Option (Stored L)} {l : List MailId} (h : m ∉ l) :
    l.map (upd f m v) = l.map f := by
  apply List.map_congr_left
  intro a ha
  exact upd_other f v (fun e => h (e ▸ ha))

private theorem Inv.step {C : Config L S U} {box : S → List (Stored L)} {peer : Nat → Peer S U} {x z : Sys L}
    (h : Inv C box peer x) (hs : Sys.Step C box peer x z) : Inv C box peer z := by
  cases hs with
  | @quiet i hb =>
    refine ⟨h.reach, fun j => ?_, h.enq, h.nodup, h.apart, h.content, h.whose⟩
    obtain ⟨st, h1, h2⟩ := h.stored j
    refine ⟨st, ?_, h2⟩
    by_cases hj : j = i
    · subst hj; simp only [upd_same]; rw [hb, h1]
    · simp only [upd_other _ _ hj]; exact h1
  | @store i y m q hb hq =>
    obtain ⟨k1, k2⟩ := enqueue_step hq
    have fresh : ¬ Has x.queue.log (.enqueued m) := fun hh => h.reach.kept.there m hh k1
    have out : ∀ j, m ∉ x.names j := fun j hh => fresh (h.enq j m hh)
    have new : Has q.log (.enqueued m) := by rw [k2]; exact .last
    refine ⟨.step h.reach trivial hq, fun j => ?_, fun j k hk => ?_, fun j => ?_, fun j j' k hk hk' => ?_, fun k w hk => ?_,
      fun k hk => ?_⟩
    · obtain ⟨st, h1, h2⟩ := h.stored j
      by_cases hj : j = i
      · subst hj
        refine ⟨st ++ [y], ?_, ?_⟩
        · simp only [upd_same]; rw [hb, h1, List.append_assoc]
        · simp only [upd_same]
          rw [List.map_append, map_upd (out j), h2]
          simp [upd_same]
      · refine ⟨st, ?_, ?_⟩
        · simp only [upd_other _ _ hj]; exact h1
        · simp only [upd_other _ _ hj]; rw [map_upd (out j), h2]
    · by_cases hj : j = i
      · subst hj
        simp only [upd_same, List.mem_append, List.mem_singleton] at hk
        rcases hk with hk | rfl
        · exact log_step hq (h.enq j k hk)
        · exact new
      · simp only [upd_other _ _ hj] at hk
        exact log_step hq (h.enq j k hk)
    · by_cases hj : j = i
      · subst hj
        simp only [upd_same]
        refine List.nodup_append.2 ⟨h.nodup j, by simp, ?_⟩
        intro a ha b hb e
        simp only [List.mem_singleton] at hb
        exact out j (hb ▸ e ▸ ha)
      · simp only [upd_other _ _ hj]; exact h.nodup j
    · have key : ∀ j, k ∈ upd x.names i (x.names i ++ [m]) j → k ∈ x.names j ∨ k = m ∧ j = i := by
        intro j hk
        by_cases hj : j = i
        · subst hj
          simp only [upd_same, List.mem_append, List.mem_singleton] at hk
          exact hk.imp id fun e => ⟨e, rfl⟩
        · rw [upd_other _ _ hj] at hk; exact .inl hk
      rcases key j hk with a | ⟨a, b⟩ <;> rcases key j' hk' with c | ⟨c, d⟩
      · exact h.apart j j' k a c
      · exact absurd (c ▸ a) (out j)
      · exact absurd (a ▸ c) (out j')
      · rw [b, d]
    · by_cases hj : k = m
      · rw [hj]; exact new
      · simp only [upd_other _ _ hj] at hk
        exact log_step hq (h.content k w hk)
    · by_cases hj : k = m
      · subst hj
        exact ⟨by simp [upd_same], .inr ⟨i, by simp [upd_same]⟩⟩
      · obtain ⟨c1, c2⟩ := h.whose k (enqueued_back k2 hk hj)
        refine ⟨by simp only [upd_other _ _ hj]; exact c1, c2.imp id ?_⟩
        rintro ⟨i', hi⟩
        refine ⟨i', ?_⟩
        by_cases hi' : i' = i
        · subst hi'; simp [upd_same, hi]
        · simp only [upd_other _ _ hi']; exact hi
  | @other y m q hq =>
    obtain ⟨k1, k2⟩ := enqueue_step hq
    have fresh : ¬ Has x.queue.log (.enqueued m) := fun hh => h.reach.kept.there m hh k1
    refine ⟨.step h.reach trivial hq, fun j => ?_, fun j k hk => log_step hq (h.enq j k hk), h.nodup, h.apart, fun k w hk => ?_,
      fun k hk => ?_⟩
    · obtain ⟨st, h1, h2⟩ := h.stored j
      exact ⟨st, h1, by rw [← h2]; exact map_upd fun hh => fresh (h.enq j m hh)⟩
    · by_cases hj : k = m
      · rw [hj]; show Has q.log _; rw [k2]; exact .last
      · simp only [upd_other _ _ hj] at hk
        exact log_step hq (h.content k w hk)
    · by_cases hj : k = m
      · subst hj
        exact ⟨by simp [upd_same], .inl (by simp)⟩
      · obtain ⟨c1, c2⟩ := h.whose k (enqueued_back k2 hk hj)
        exact ⟨by simp only [upd_other _ _ hj]; exact c1, c2.imp (by simp +contextual) id⟩
  | @queue a q ha hq =>
    exact ⟨.step h.reach trivial hq, h.stored, fun j k hk => log_step hq (h.enq j k hk), h.nodup, h.apart,
      fun k w hk => log_step hq (h.content k w hk), fun k hk => h.whose k (not_enqueued ha hq hk)⟩

private theorem Inv.steps {C : Config L S U} {box : S → List (Stored L)} {peer : Nat → Peer S U} {x z : Sys L}
    (h : Inv C box peer x) (hs : Sys.Steps C box peer x z) : Inv C box peer z := by
  induction hs with
  | refl => exact h
  | step _ h2 ih => exact ih.step h2

private theorem inv_init (C : Config L S U) (box : S → List (Stored L)) (peer : Nat → Peer S U) : Inv C box peer Sys.init := by
  refine ⟨.init, fun i => ⟨[], ?_, rfl⟩, ?_, ?_, ?_, ?_, fun m ⟨e, he, _⟩ => by cases he⟩
  · rw [List.append_nil]; rfl
  all_goals simp [Sys.init]

private theorem Inv.of {C : Config L S U} {box : S → List (Stored L)} {peer : Nat → Peer S U} {x : Sys L}
    (h : Sys.Steps C box peer Sys.init x) : Inv C box peer x := (inv_init C box peer).steps h

/-- C104. In every state the system can get into, for every session: the mails it was to store, in order, are those its names
stand for; each of them is in the queue, in flight, or was accepted by the transport. What they are is what the client sent
(`c103_mailbox`): the accepted ones, and so the acknowledged ones. -/
theorem c104_never_lost (C : Config L S U) (V : Verdict L S U) (box : S → List (Stored L)) (peer : Nat → Peer S U)
    (hV : ∀ s u m, WholeMessage (C.handleMail s u m) (V s u m)) (hb : Keeps C V box) {x : Sys L}
    (h : Sys.Steps C box peer Sys.init x) (i : Nat) :
    ∃ stored, (x.names i).map x.content = stored.map some ∧ (∀ m ∈ x.names i, Safe x.queue m) ∧
      stored.map (·.1) = acceptedMails ((peer i).at C (x.answers i)).trace ∧ Sent L (evBytes (peer i).incoming) stored ∧
      acknowledgedMails ((peer i).at C (x.answers i)).trace <+: stored.map (·.1) := by
  have hx := Inv.of h
  obtain ⟨st, h1, h2⟩ := hx.stored i
  obtain ⟨st', k1, k2, k3, k4⟩ := c103_mailbox C V box hV hb (peer i).incoming (peer i).outgoing (peer i).cfg (peer i).conn (x.answers i)
  have e : st = st' := List.append_cancel_left (h1.symm.trans k1)
  subst e
  refine ⟨st, h2, fun m hm => c57_never_lost hx.reach (hx.enq i m hm), k2, k3, ?_⟩
  rcases k4 with k4 | ⟨m, _, _, k4, _⟩
  · rw [k4]; exact List.prefix_refl _
  · rw [k4]; exact List.prefix_append _ _

/-- C104. The `k`th mail whose acceptance a client was told has a name, under it the storage was given the envelope of this mail
with its text, and the mail is in the queue, in flight, or was accepted by the transport. -/
theorem c104_acknowledged (C : Config L S U) (V : Verdict L S U) (box : S → List (Stored L)) (peer : Nat → Peer S U)
    (hV : ∀ s u m, WholeMessage (C.handleMail s u m) (V s u m)) (hb : Keeps C V box) {x : Sys L}
    (h : Sys.Steps C box peer Sys.init x) {i k : Nat} {env : MailMeta L}
    (hk : (acknowledgedMails ((peer i).at C (x.answers i)).trace)[k]? = some env) :
    ∃ m text ok, (x.names i)[k]? = some m ∧ x.content m = some (env, text, ok) ∧ Safe x.queue m := by
  obtain ⟨st, h1, h2, _, _, h5⟩ := c104_never_lost C V box peer hV hb h i
  have h6 : (st.map (·.1))[k]? = some env := by
    obtain ⟨t, ht⟩ := h5
    rw [← ht, List.getElem?_append_left (by rcases List.getElem?_eq_some_iff.1 hk with ⟨a, _⟩; exact a)]
    exact hk
  rw [List.getElem?_map] at h6
  cases hs : st[k]? with
  | none => rw [hs] at h6; cases h6
  | some y =>
    rw [hs] at h6
    simp only [Option.map_some, Option.some.injEq] at h6
    have h7 : ((x.names i).map x.content)[k]? = some (some y) := by rw [h1, List.getElem?_map, hs]; rfl
    rw [List.getElem?_map] at h7
    cases hm : (x.names i)[k]? with
    | none => rw [hm] at h7; cases h7
    | some m =>
      rw [hm] at h7
      simp only [Option.map_some, Option.some.injEq] at h7
      obtain ⟨e, t, o⟩ := y
      subst h6
      exact ⟨m, t, o, rfl, h7, h2 m (List.mem_of_getElem? hm)⟩

/-- C104. No two mails share a name: not in one session, and not in two. -/
theorem c104_names (C : Config L S U) (box : S → List (Stored L)) (peer : Nat → Peer S U) {x : Sys L}
    (h : Sys.Steps C box peer Sys.init x) {i j k l : Nat} {m : MailId} (h1 : (x.names i)[k]? = some m)
    (h2 : (x.names j)[l]? = some m) : i = j ∧ k = l := by
  have hx := Inv.of h
  have e := hx.apart i j m (List.mem_of_getElem? h1) (List.mem_of_getElem? h2)
  subst e
  refine ⟨rfl, ?_⟩
  obtain ⟨a, b⟩ := List.getElem?_eq_some_iff.1 h1
  obtain ⟨c, d⟩ := List.getElem?_eq_some_iff.1 h2
  have hn := List.pairwise_iff_getElem.1 (hx.nodup i)
  rcases Nat.lt_trichotomy k l with hl | hl | hl
  · exact absurd (b.trans d.symm) (hn k l a c hl)
  · exact hl
  · exact absurd (d.trans b.symm) (hn l k c a hl)

/-- C104. What is stored under a name stays the same, whatever happens; so does the list of the names of a session, but for new
ones. -/
theorem c104_kept (C : Config L S U) (box : S → List (Stored L)) (peer : Nat → Peer S U) {x z : Sys L}
    (h : Sys.Steps C box peer Sys.init x) (hs : Sys.Steps C box peer x z) :
    (∀ m y, x.content m = some y → z.content m = some y) ∧ (∀ i, x.names i <+: z.names i) ∧ ∀ i, x.answers i ≤ z.answers i := by
  induction hs with
  | refl => exact ⟨fun _ _ h => h, fun _ => List.prefix_refl _, fun _ => Nat.le_refl _⟩
  | @step y z h1 h2 ih =>
    have hy := (Inv.of h).steps h1
    obtain ⟨i1, i2, i3⟩ := ih
    have up : ∀ i j, y.answers j ≤ upd y.answers i (y.answers i + 1) j := by
      intro i j
      by_cases hj : j = i
      · subst hj; rw [upd_same]; omega
      · rw [upd_other _ _ hj]; exact Nat.le_refl _
    have co : ∀ m q, Queue.step y.queue (.enqueue m) = some q → ∀ v k w, y.content k = some w → upd y.content m v k = some w := by
      intro m q hq v k w hw
      have : k ≠ m := by
        rintro rfl
        exact hy.reach.kept.there _ (hy.content _ _ hw) (enqueue_step hq).1
      rw [upd_other _ _ this]; exact hw
    cases h2 with
    | @quiet i hb => exact ⟨i1, i2, fun j => Nat.le_trans (i3 j) (up i j)⟩
    | @store i v m q hb hq =>
      refine ⟨fun k w hk => co m q hq _ k w (i1 k w hk), fun j => (i2 j).trans ?_, fun j => Nat.le_trans (i3 j) (up i j)⟩
      by_cases hj : j = i
      · subst hj; simp only [upd_same]; exact List.prefix_append _ _
      · simp only [upd_other _ _ hj]; exact List.prefix_refl _
    | @other v m q hq => exact ⟨fun k w hk => co m q hq _ k w (i1 k w hk), i2, i3⟩
    | @queue a q ha hq => exact ⟨i1, i2, i3⟩

/-- C104. Nothing is made up on the way: every mail the transport is given was enqueued by somebody else, or it is one of a
session's mails, the one this session has accepted under this name. -/
theorem c104_nothing_new (C : Config L S U) (V : Verdict L S U) (box : S → List (Stored L)) (peer : Nat → Peer S U)
    (hV : ∀ s u m, WholeMessage (C.handleMail s u m) (V s u m)) (hb : Keeps C V box) {x : Sys L}
    (h : Sys.Steps C box peer Sys.init x) {r t : Nat} {c : Queue.Claim} {m : MailId}
    (hc : Has x.queue.log (.call r t (.transportSend c m))) :
    m ∈ x.others ∨ ∃ (i k : Nat) (stored : List (Stored L)), (x.names i)[k]? = some m ∧ x.content m = stored[k]? ∧ x.content m ≠ none ∧
      stored.map (·.1) = acceptedMails ((peer i).at C (x.answers i)).trace ∧ Sent L (evBytes (peer i).incoming) stored := by
  have hx := Inv.of h
  have he : Has x.queue.log (.enqueued m) := by
    obtain ⟨e, he, hv⟩ := hc
    obtain ⟨pre, post, hp⟩ := List.append_of_mem he
    obtain ⟨t', ev⟩ := e
    cases hv
    obtain ⟨rfl, ⟨e', he', hv'⟩⟩ := c58_right_message hx.reach hp
    exact taken hx.reach ⟨e', by rw [hp]; exact List.mem_append_left _ he', hv'⟩
  obtain ⟨h1, h2⟩ := hx.whose m he
  rcases h2 with h2 | ⟨i, hi⟩
  · exact .inl h2
  · obtain ⟨st, k1, _, k3, k4, _⟩ := c104_never_lost C V box peer hV hb h i
    obtain ⟨k, hk⟩ := List.mem_iff_getElem?.1 hi
    refine .inr ⟨i, k, st, hk, ?_, h1, k3, k4⟩
    have h7 : ((x.names i).map x.content)[k]? = (st.map some)[k]? := by rw [k1]
    rw [List.getElem?_map, List.getElem?_map, hk] at h7
    cases hs : st[k]? with
    | none => rw [hs] at h7; cases h7
    | some y => rw [hs] at h7; simpa using h7

private theorem name_bound (log : List Queue.Entry) : ∃ n, ∀ m, Has log (.enqueued m) → m < n := by
  induction log with
  | nil => exact ⟨0, fun m ⟨e, he, _⟩ => by cases he⟩
  | cons e l ih =>
    obtain ⟨n, hn⟩ := ih
    by_cases h : ∃ m, e.ev = .enqueued m
    · obtain ⟨m, hm⟩ := h
      refine ⟨n + m + 1, fun k ⟨e', he, hk⟩ => ?_⟩
      rcases List.mem_cons.1 he with rfl | he
      · rw [hm] at hk; cases hk; exact Nat.lt_succ_of_le (Nat.le_add_left _ _)
      · exact Nat.lt_succ_of_le (Nat.le_trans (Nat.le_of_lt (hn k ⟨e', he, hk⟩)) (Nat.le_add_right _ _))
    · refine ⟨n, fun k ⟨e', he, hk⟩ => ?_⟩
      rcases List.mem_cons.1 he with rfl | he
      · exact absurd ⟨k, hk⟩ h
      · exact hn k ⟨e', he, hk⟩

/-- C104. The system never stops a session: each can always go on to its next `.await`. -/
theorem c104_goes_on (C : Config L S U) (V : Verdict L S U) (box : S → List (Stored L)) (peer : Nat → Peer S U)
    (hV : ∀ s u m, WholeMessage (C.handleMail s u m) (V s u m)) (hb : Keeps C V box) {x : Sys L}
    (h : Sys.Steps C box peer Sys.init x) (i : Nat) :
    ∃ z, Sys.Step C box peer x z ∧ z.answers = upd x.answers i (x.answers i + 1) := by
  have hx := Inv.of h
  rcases after_grows C V box hV hb (peer i).incoming (peer i).outgoing (peer i).cfg (peer i).conn (x.answers i) with k | ⟨y, k⟩
  · exact ⟨_, .quiet k, rfl⟩
  · obtain ⟨m, hm⟩ := name_bound x.queue.log
    have : x.queue.store m = .absent := by
      apply Classical.byContradiction
      intro hh
      exact Nat.lt_irrefl _ (hm m (hx.reach.kept.back m hh))
    exact ⟨_, .store (m := m) k (by simp only [Queue.step]; rw [if_pos this]), rfl⟩

/-! ### In the long run -/

private theorem forever_steps {C : Config L S U} {box : S → List (Stored L)} {peer : Nat → Peer S U} (X : Sys.Forever C box peer)
    (n : Nat) : ∀ k, Sys.Steps C box peer (X.st n) (X.st (n + k))
  | 0 => .refl
  | k + 1 => .step (forever_steps X n k) (X.next (n + k))

private theorem forever_reach {C : Config L S U} {box : S → List (Stored L)} {peer : Nat → Peer S U} (X : Sys.Forever C box peer)
    (n : Nat) : Sys.Steps C box peer Sys.init (X.st n) := by
  have := forever_steps X 0 n
  rwa [X.first, Nat.zero_add] at this

/-- C104. What the queue does in the system is an execution of the queue: while a session goes on without storing anything, nothing
happens to it. -/
theorem c104_projects {C : Config L S U} {box : S → List (Stored L)} {peer : Nat → Peer S U} (X : Sys.Forever C box peer) :
    ∃ E : Queue.Execution, ∀ n, E.st n = (X.st n).queue := by
  have key : ∀ n, ∃ a, Queue.step (X.st n).queue a = some (X.st (n + 1)).queue := by
    intro n
    cases hx : X.st (n + 1) with
    | mk q an na co ot =>
      have h := X.next n
      rw [hx] at h
      cases h with
      | quiet _ => exact ⟨.tick 0, rfl⟩
      | store _ hq => exact ⟨_, hq⟩
      | other hq => exact ⟨_, hq⟩
      | queue _ hq => exact ⟨_, hq⟩
  exact ⟨⟨fun n => (X.st n).queue, fun n => (key n).choose, by rw [X.first]; rfl, fun n => (key n).choose_spec⟩, fun _ => rfl⟩

/-- C104. An acknowledged mail is delivered in the end: the `k`th mail whose acceptance a client was told, at any time up to `n`, has
a name `m`, which stands for the envelope and the text; and if at time `n` the queue is started, then under the conditions of C78
(fairness, a storage that is reliable for this mail and lists what it holds, finitely many refusals) the transport accepts it some
day, and it is removed. -/
theorem c104_delivered (C : Config L S U) (V : Verdict L S U) (box : S → List (Stored L)) (peer : Nat → Peer S U)
    (hV : ∀ s u m, WholeMessage (C.handleMail s u m) (V s u m)) (hb : Keeps C V box) (X : Sys.Forever C box peer)
    (E : Queue.Execution) (hE : ∀ n, E.st n = (X.st n).queue) (hf : Queue.Fair E) {i k n0 n : Nat} {env : MailMeta L}
    (hk : (acknowledgedMails ((peer i).at C ((X.st n0).answers i)).trace)[k]? = some env) (h0 : n0 ≤ n) :
    ∃ m text ok, ((X.st n).names i)[k]? = some m ∧ (X.st n).content m = some (env, text, ok) ∧
      ∀ e f n1 r, (∀ k, n ≤ k → Queue.Reliable m (E.st k) (E.act k)) → E.act n = .start r → n ≤ e → E.act e = .listEnd r →
        ((∀ k, n ≤ k → k ≤ e → (E.st k).store m = .queued) → ∃ k, n ≤ k ∧ k ≤ e ∧ E.act k = .list r m) →
        e ≤ f → E.act f = .findEnd r →
        (∀ g, (∀ k, e ≤ k → k ≤ f → (E.st k).store m = .inflight g) → ∃ k, e ≤ k ∧ k ≤ f ∧ E.act k = .find r ⟨m, g⟩) →
        (∀ k, n1 ≤ k → ¬ Queue.Refuses m (E.st k) (E.act k) ∧ ¬ Queue.Finds m (E.act k)) →
        ∃ k, n ≤ k ∧ (E.st k).store m = .gone ∧ Queue.Accepted (E.st k).log m := by
  obtain ⟨m, text, ok, h1, h2, _⟩ := c104_acknowledged C V box peer hV hb (forever_reach X n0) hk
  obtain ⟨d, rfl⟩ := Nat.le.dest h0
  obtain ⟨h4, h5, _⟩ := c104_kept C box peer (forever_reach X n0) (forever_steps X n0 d)
  have h6 : ((X.st (n0 + d)).names i)[k]? = some m := by
    obtain ⟨t, ht⟩ := h5 i
    rw [← ht, List.getElem?_append_left (by rcases List.getElem?_eq_some_iff.1 h1 with ⟨a, _⟩; exact a)]
    exact h1
  refine ⟨m, text, ok, h6, h4 m _ h2, ?_⟩
  intro e f n1 r a1 a2 a3 a4 a5 a6 a7 a8 a9
  obtain ⟨_, _, b2, _⟩ := c104_never_lost C V box peer hV hb (forever_reach X (n0 + d)) i
  have b3 := b2 m (List.mem_of_getElem? h6)
  rw [Safe, ← hE] at b3
  rcases b3 with b | b | ⟨b, b'⟩
  · exact c78_restart E hf m (n0 + d) e f n1 r a1 a2 (.inl b) a3 a4 a5 a6 a7 a8 a9
  · exact c78_restart E hf m (n0 + d) e f n1 r a1 a2 (.inr b) a3 a4 a5 a6 a7 a8 a9
  · exact ⟨n0 + d, Nat.le_refl _, b, b'⟩

/-! ### An execution -/

private theorem quiet_steps {C : Config L S U} {box : S → List (Stored L)} {peer : Nat → Peer S U} (i : Nat) :
    ∀ (k : Nat) (y x : Sys L), Sys.Steps C box peer y x →
      (∀ n, n < k → box ((peer i).at C (x.answers i + n + 1)).cfg = box ((peer i).at C (x.answers i + n)).cfg) →
      ∃ z, Sys.Steps C box peer y z ∧ z.answers i = x.answers i + k ∧ z.names = x.names ∧ z.content = x.content ∧ z.queue = x.queue
  | 0, _, x, hx, _ => ⟨x, hx, rfl, rfl, rfl, rfl⟩
  | k + 1, y, x, hx, h => by
    obtain ⟨z, h1, h2, h3, h4, h5⟩ := quiet_steps i k y { x with answers := upd x.answers i (x.answers i + 1) }
      (.step hx (.quiet (h 0 (by omega)))) (by
        intro n hn
        have := h (n + 1) (by omega)
        simp only [upd_same]
        rw [show x.answers i + 1 + n = x.answers i + (n + 1) by omega]
        exact this)
    refine ⟨z, h1, ?_, h3, h4, h5⟩
    rw [h2]
    simp only [upd_same]
    omega

private theorem queue_steps {C : Config L S U} {box : S → List (Stored L)} {peer : Nat → Peer S U} :
    ∀ (as : List Queue.Act) (y x : Sys L) (q : Queue.St), Sys.Steps C box peer y x → (∀ m, .enqueue m ∉ as) →
      Queue.exec x.queue as = some q → Sys.Steps C box peer y { x with queue := q }
  | [], _, x, q, hx, _, h => by
    simp only [Queue.exec, Option.some.injEq] at h
    subst h; exact hx
  | a :: as, y, x, q, hx, ha, h => by
    simp only [Queue.exec] at h
    split at h
    · rename_i q' hq
      refine queue_steps as y { x with queue := q' } q (.step hx (.queue ?_ hq)) (fun m hm => ha m (by simp [hm])) h
      intro m e
      exact ha m (by simp [e])
    · cases h

/-- The peer of the example: it sends one mail. -/
abbrev onePeer : Nat → Peer (MailBox exampleIp) Unit := fun _ => ⟨[.pkt oneMail], ⟨[], []⟩, [], ()⟩

/-- C104: the session stores its mail under the name 5 and says so; then a queue is started, which delivers it. -/
theorem c104_example : ∃ x : Sys exampleIp, Sys.Steps (testConfig exampleIp) testBox onePeer Sys.init x ∧ x.names 0 = [5] ∧
    (acknowledgedMails ((onePeer 0).at (testConfig exampleIp) (x.answers 0)).trace).length = 1 ∧
    (x.content 5).map (·.2.1) = some b!"hi\r\n" ∧ x.queue.store 5 = .gone := by
  obtain ⟨x1, a1, a2, a3, a4, a5⟩ := quiet_steps (C := testConfig exampleIp) (box := testBox) (peer := onePeer) 0 18 Sys.init Sys.init
    .refl (by
      have : ∀ n, n < 18 → (testBox ((onePeer 0).at (testConfig exampleIp) (n + 1)).cfg).length = 0 ∧
          (testBox ((onePeer 0).at (testConfig exampleIp) n).cfg).length = 0 := by decide +kernel
      intro n hn
      show testBox ((onePeer 0).at (testConfig exampleIp) (0 + n + 1)).cfg = testBox ((onePeer 0).at (testConfig exampleIp) (0 + n)).cfg
      rw [Nat.zero_add, List.eq_nil_of_length_eq_zero (this n hn).1, List.eq_nil_of_length_eq_zero (this n hn).2])
  have b2 : x1.answers 0 = 18 := by rw [a2]; rfl
  have b3 : (testBox ((onePeer 0).at (testConfig exampleIp) 18).cfg).length = 0 := by decide +kernel
  have b4 : (testBox ((onePeer 0).at (testConfig exampleIp) 19).cfg).map (·.2.1) = [b!"hi\r\n"] := by decide +kernel
  obtain ⟨y, by_, bt⟩ : ∃ y, testBox ((onePeer 0).at (testConfig exampleIp) 19).cfg = [y] ∧ y.2.1 = b!"hi\r\n" := by
    generalize testBox ((onePeer 0).at (testConfig exampleIp) 19).cfg = l at b4
    obtain ⟨y, hy, ht⟩ := List.map_eq_singleton_iff.1 b4
    exact ⟨y, hy, ht⟩
  obtain ⟨q, hq⟩ : ∃ q, Queue.step (Queue.init) (.enqueue 5) = some q := ⟨_, rfl⟩
  have s2 := Sys.Steps.step a1 (.store (i := 0) (y := y) (m := 5) (q := q) (by
    rw [b2, by_, List.eq_nil_of_length_eq_zero b3]; rfl) (by rw [a5]; exact hq))
  obtain ⟨x3, c1, c2, c3, c4, c5⟩ := quiet_steps (C := testConfig exampleIp) (box := testBox) (peer := onePeer) 0 2 _ _ s2 (by
    have : ∀ n, n < 2 → (testBox ((onePeer 0).at (testConfig exampleIp) (19 + n + 1)).cfg).length = 1 ∧
        (testBox ((onePeer 0).at (testConfig exampleIp) (19 + n)).cfg).length = 1 := by decide +kernel
    intro n hn
    simp only [upd_same, b2]
    refine ((c103_kept (testConfig exampleIp) (testVerdict exampleIp) testBox test_whole c103_example_keeps _ _ _ _ (19 + n) 1).eq_of_length
      ?_).symm
    rw [(this n hn).1, (this n hn).2])
  obtain ⟨q', hq', hg⟩ : ∃ q', Queue.exec q [.start 0, .list 0 5, .listEnd 0, .findEnd 0, .answer 0 (.inflight ⟨5, 0⟩) true, .proceed 0,
      .answer 0 (.mail 5) true, .proceed 0, .answer 0 .ok true, .proceed 0, .answer 0 .ok true, .proceed 0] = some q' ∧
      q'.store 5 = .gone := by
    cases hq
    exact ⟨_, rfl, rfl⟩
  refine ⟨_, queue_steps _ _ _ q' c1 ?_ ((congrArg (Queue.exec · _) c5).trans hq'), ?_, ?_, ?_, hg⟩
  · intro m; simp
  · show x3.names 0 = [5]
    rw [c3]
    simp only [upd_same, a3]
    rfl
  · show (acknowledgedMails ((onePeer 0).at (testConfig exampleIp) (x3.answers 0)).trace).length = 1
    rw [c2]
    simp only [upd_same, b2]
    decide +kernel
  · show (x3.content 5).map (·.2.1) = some b!"hi\r\n"
    rw [c4]
    simp only [upd_same, Option.map_some, bt]

/-- What the queue does in the next example: nothing, while the session reads its mail; the mail is enqueued; nothing, while the
client is told; the queue is started and delivers. -/
def delivery : List Queue.Act := List.replicate 18 (.tick 0) ++ [.enqueue 5, .tick 0, .tick 0, .start 0, .list 0 5, .listEnd 0, .findEnd 0,
  .answer 0 (.inflight ⟨5, 0⟩) true, .proceed 0, .answer 0 (.mail 5) true, .proceed 0, .answer 0 .ok true, .proceed 0,
  .answer 0 .ok true, .proceed 0]

private theorem delivery_ok : (Queue.exec Queue.init delivery).isSome = true := by decide +kernel

private theorem at_stays {n : Nat} (h : n < 18 ∨ n = 19 ∨ n = 20) :
    testBox ((onePeer 0).at (testConfig exampleIp) (n + 1)).cfg = testBox ((onePeer 0).at (testConfig exampleIp) n).cfg := by
  have : ∀ n, n < 21 → (n < 18 ∨ n = 19 ∨ n = 20) → (testBox ((onePeer 0).at (testConfig exampleIp) (n + 1)).cfg).length =
      (testBox ((onePeer 0).at (testConfig exampleIp) n).cfg).length := by decide +kernel
  exact ((c103_kept (testConfig exampleIp) (testVerdict exampleIp) testBox test_whole c103_example_keeps _ _ _ _ n 1).eq_of_length
    (this n (by omega) h).symm).symm

/-- C104: a system that meets the hypotheses of `c104_delivered`, at time 21, with the one mail of the session. -/
theorem c104_example_delivered : ∃ (X : Sys.Forever (testConfig exampleIp) testBox onePeer) (E : Queue.Execution),
    (∀ n, E.st n = (X.st n).queue) ∧ Queue.Fair E ∧
    (acknowledgedMails ((onePeer 0).at (testConfig exampleIp) ((X.st 21).answers 0)).trace).length = 1 ∧ (X.st 21).names 0 = [5] ∧
    (∀ k, 21 ≤ k → Queue.Reliable 5 (E.st k) (E.act k)) ∧ E.act 21 = .start 0 ∧ E.act 22 = .list 0 5 ∧ E.act 23 = .listEnd 0 ∧
    E.act 24 = .findEnd 0 ∧ (E.st 23).store 5 = .queued ∧
    ∀ k, 21 ≤ k → ¬ Queue.Refuses 5 (E.st k) (E.act k) ∧ ¬ Queue.Finds 5 (E.act k) := by
  obtain ⟨s, hs, hs'⟩ := Queue.of_any (x := Queue.exec Queue.init delivery)
    (p := fun s => s.tids == 1 && (s.task 0).isNone) (by decide +kernel)
  obtain ⟨s21, h1, h2⟩ := Queue.of_any (x := Queue.exec Queue.init (delivery.take 21))
    (p := fun s => Queue.checkB (fun s a => Queue.noFailureB s a && Queue.quietB s a && (match a with | .enqueue _ => false | _ => true)) s
      (delivery.drop 21)) (by decide +kernel)
  have late : ∀ k, 21 ≤ k → Queue.Reliable 5 (Queue.stAt k Queue.init delivery) (Queue.actAt k delivery) ∧
      (¬ Queue.Refuses 5 (Queue.stAt k Queue.init delivery) (Queue.actAt k delivery) ∧ ¬ Queue.Finds 5 (Queue.actAt k delivery)) ∧
      ∀ m, Queue.actAt k delivery ≠ .enqueue m := by
    intro k hk
    have := Queue.checkB_sound (P := fun s a => Queue.Reliable 5 s a ∧ (¬ Queue.Refuses 5 s a ∧ ¬ Queue.Finds 5 a) ∧ ∀ m, a ≠ .enqueue m)
      (fun s a h => by
        simp only [Bool.and_eq_true] at h
        refine ⟨Queue.noFailureB_reliable 5 h.1.1, Queue.quietB_sound 5 h.1.2, ?_⟩
        rintro m rfl
        simp at h)
      (fun s => ⟨Queue.noFailureB_reliable 5 rfl, Queue.quietB_sound 5 rfl, by simp⟩) (k - 21) _ _ h2
    have e1 := Queue.stAt_append (delivery.take 21) (delivery.drop 21) Queue.init s21 (k - 21) h1
    have e2 := Queue.actAt_append (delivery.take 21) (delivery.drop 21) (k - 21)
    rw [List.take_append_drop] at e1 e2
    rw [← e1, ← e2] at this
    rw [show (delivery.take 21).length + (k - 21) = k by simp [delivery]; omega] at this
    exact this
  obtain ⟨y, hy⟩ : ∃ y, testBox ((onePeer 0).at (testConfig exampleIp) 19).cfg = [y] := by
    have : (testBox ((onePeer 0).at (testConfig exampleIp) 19).cfg).length = 1 := by decide +kernel
    exact List.length_eq_one_iff.1 this
  have hn : testBox ((onePeer 0).at (testConfig exampleIp) 18).cfg = [] :=
    List.eq_nil_of_length_eq_zero (by decide +kernel)
  have acts : ∀ n, n < 21 → (n < 18 ∨ n = 19 ∨ n = 20) → Queue.actAt n delivery = .tick 0 := by decide +kernel
  let E : Queue.Execution := .ofList delivery delivery_ok
  let st : Nat → Sys exampleIp := fun n => ⟨E.st n, upd (fun _ => 0) 0 (min n 21), if n ≤ 18 then fun _ => [] else upd (fun _ => []) 0 [5],
    if n ≤ 18 then fun _ => none else upd (fun _ => none) 5 (some y), []⟩
  have next : ∀ n, Sys.Step (testConfig exampleIp) testBox onePeer (st n) (st (n + 1)) := by
    intro n
    by_cases h : n < 18 ∨ n = 19 ∨ n = 20
    · have h3 := E.next n
      have h4 : E.act n = .tick 0 := acts n (by omega) h
      rw [h4] at h3
      have h5 : E.st (n + 1) = E.st n := by simpa [Queue.step] using h3.symm
      have h6 := Sys.Step.quiet (C := testConfig exampleIp) (box := testBox) (peer := onePeer) (x := st n) (i := 0) (by
        have : (st n).answers 0 = n := by simp only [st, upd_same]; omega
        rw [this]
        exact at_stays h)
      have h7 : st (n + 1) = { st n with answers := upd (st n).answers 0 ((st n).answers 0 + 1) } := by
        have e1 : (n + 1 ≤ 18) ↔ (n ≤ 18) := by omega
        have e2 : upd (fun _ => 0) 0 (min (n + 1) 21) = upd (upd (fun _ => 0) 0 (min n 21)) 0 (min n 21 + 1) := by
          funext j
          simp only [upd]
          split <;> omega
        simp only [st, h5, e1, upd_same, e2]
      rw [h7]; exact h6
    · by_cases h8 : n = 18
      · subst h8
        have h3 := E.next 18
        have h4 : E.act 18 = .enqueue 5 := by decide +kernel
        rw [h4] at h3
        have h6 := Sys.Step.store (C := testConfig exampleIp) (box := testBox) (peer := onePeer) (x := st 18) (i := 0) (y := y) (m := 5)
          (q := E.st 19) (by
            show testBox ((onePeer 0).at (testConfig exampleIp) 19).cfg = testBox ((onePeer 0).at (testConfig exampleIp) 18).cfg ++ [y]
            rw [hy, hn]; rfl) h3
        have e2 : upd (fun _ => 0) 0 (min 19 21) = upd (upd (fun _ => 0) 0 (min 18 21)) 0 (min 18 21 + 1) := by
          funext j
          simp only [upd]
          split <;> omega
        have h7 : st 19 = ⟨E.st 19, upd (st 18).answers 0 ((st 18).answers 0 + 1), upd (st 18).names 0 ((st 18).names 0 ++ [5]),
            upd (st 18).content 5 (some y), (st 18).others⟩ := by
          simp only [st, e2, upd_same]
          rfl
        exact h7 ▸ h6
      · have h6 := Sys.Step.queue (C := testConfig exampleIp) (box := testBox) (peer := onePeer) (x := st n) (late n (by omega)).2.2 (E.next n)
        have h7 : st (n + 1) = { st n with queue := E.st (n + 1) } := by
          have e1 : min (n + 1) 21 = min n 21 := by omega
          have e2 : ¬ n + 1 ≤ 18 := by omega
          have e3 : ¬ n ≤ 18 := by omega
          simp only [st, e1, e2, e3, if_false]
        exact h7 ▸ h6
  have zero : st 0 = Sys.init := by
    have : upd (fun _ => 0) 0 (min 0 21) = fun _ => 0 := by
      funext j
      simp [upd]
    simp only [st, this]
    rfl
  refine ⟨⟨st, zero, next⟩, E, fun _ => rfl, ?_, ?_, rfl, fun k hk => (late k hk).1, by decide +kernel, by decide +kernel, by decide +kernel,
    by decide +kernel, by decide +kernel, fun k hk => (late k hk).2.1⟩
  · refine Queue.Execution.ofList_fair _ _ s hs fun i => ?_
    have : ∀ i t, s.task i = some t → i < s.tids := fun i t ht =>
      ((Queue.exec_reach (P := Always) .init (fun _ _ => trivial) hs).basic.task i t ht).tid
    cases hi : s.task i with
    | none => rfl
    | some t =>
      have hlt := this i t hi
      simp only [Bool.and_eq_true, beq_iff_eq, Option.isNone_iff_eq_none] at hs'
      rw [hs'.1] at hlt
      match i, hlt, hi with
      | 0, _, hi => rw [hs'.2] at hi; cases hi
  · show (acknowledgedMails ((onePeer 0).at (testConfig exampleIp) 21).trace).length = 1
    decide +kernel

end Verif
