import Verif.Spec.Queue
/-
Invariants of the queue.
-/
namespace Verif.Queue

@[simp] theorem upd_same {α : Type} (f : Nat → α) (k : Nat) (v : α) : upd f k v k = v := by simp [upd]
theorem upd_ne {α : Type} (f : Nat → α) {k x : Nat} (v : α) (h : x ≠ k) : upd f k v x = f x := by simp [upd, h]
theorem upd_eq_some {α : Type} {f : Nat → Option α} {k x : Nat} {v : Option α} {t : α} (h : upd f k v x = some t) :
    (x = k ∧ v = some t) ∨ (x ≠ k ∧ f x = some t) := by
  unfold upd at h
  split at h
  · exact .inl ⟨‹_›, h⟩
  · exact .inr ⟨‹_›, h⟩

/-! ### Inversion of the actions -/

/-- What an answer may do to the storage. -/
inductive Effect (s : St) : Op → Ans → Bool → St → Prop
  | take {m a eff} : s.store m = .queued → (a = .inflight ⟨m, s.gens⟩ ∨ a = .err) →
      Effect s (.sendStart m) a eff (s.take m)
  | fetched {c eff} : Effect s (.getMail c) (.mail c.mail) eff s
  | sent {c b a eff} : a = .ok ∨ a = .err → Effect s (.transportSend c b) a eff s
  | done {c a eff} : s.store c.mail = .inflight c.gen → (a = .ok ∨ a = .err) →
      Effect s (.sendDone c) a eff { s with store := upd s.store c.mail .gone }
  | cancelled {c a eff} : s.store c.mail = .inflight c.gen → (a = .queued c.mail ∨ a = .err) →
      Effect s (.sendCancel c) a eff { s with store := upd s.store c.mail .queued }
  | recovered {c a eff} : s.store c.mail = .inflight c.gen → (a = .queued c.mail ∨ a = .err ∧ eff = true) →
      Effect s (.cancelFound c) a eff { s with store := upd s.store c.mail .queued }
  | waited {t c eff} : t ≤ s.now → Effect s (.delay t c) .ok eff s
  | failed {o eff} : (∀ c b, o ≠ .transportSend c b) → Effect s o .err eff s

theorem effect_cases {s : St} {o : Op} {a : Ans} {eff : Bool} {s' : St} (h : effect s o a eff = some s') :
    Effect s o a eff s' := by
  unfold effect at h
  split at h
  · split at h
    · rename_i hc
      obtain ⟨h1, rfl⟩ := hc
      cases h
      exact .take h1 (.inl rfl)
    · simp at h
  · split at h
    · split at h
      · cases h; exact .take ‹_› (.inr rfl)
      · simp at h
    · cases h; exact .failed (by simp)
  · split at h
    · rename_i hb; subst hb; cases h; exact .fetched
    · simp at h
  · cases h; exact .failed (by simp)
  · cases h; exact .sent (.inl rfl)
  · cases h; exact .sent (.inr rfl)
  · split at h
    · cases h; exact .done ‹_› (.inl rfl)
    · simp at h
  · split at h
    · split at h
      · cases h; exact .done ‹_› (.inr rfl)
      · simp at h
    · cases h; exact .failed (by simp)
  · split at h
    · rename_i hc
      obtain ⟨rfl, h1⟩ := hc
      cases h; exact .cancelled h1 (.inl rfl)
    · simp at h
  · split at h
    · split at h
      · cases h; exact .cancelled ‹_› (.inr rfl)
      · simp at h
    · cases h; exact .failed (by simp)
  · split at h
    · cases h; exact .waited ‹_›
    · simp at h
  · cases h; exact .failed (by simp)
  · split at h
    · rename_i hc
      obtain ⟨rfl, h1⟩ := hc
      cases h; exact .recovered h1 (.inl rfl)
    · simp at h
  · split at h
    · split at h
      · cases h; exact .recovered ‹_› (.inr ⟨rfl, ‹_›⟩)
      · simp at h
    · cases h; exact .failed (by simp)
  · simp at h

/-- The tasks after a crash of `r`. -/
def survivors (s : St) (r : Nat) : Nat → Option Task := fun tid => match s.task tid with
  | some t => if t.run = r then none else some t
  | none => none

theorem survivors_some {s : St} {r tid : Nat} {t : Task} (h : survivors s r tid = some t) :
    s.task tid = some t ∧ t.run ≠ r := by
  unfold survivors at h
  split at h
  · split at h
    · simp at h
    · cases h; exact ⟨‹_›, ‹_›⟩
  · simp at h

/-- The actions, with their conditions. -/
inductive Step (s : St) : Act → St → Prop
  | tick {d} : Step s (.tick d) { s with now := s.now + d }
  | enqueue {m} : s.store m = .absent →
      Step s (.enqueue m) ({ s with store := upd s.store m .queued }.note (.enqueued m))
  | start {r} : (s.runs r).phase = .notStarted →
      Step s (.start r) ({ s with runs := upd s.runs r ⟨.listing, s.now⟩ }.note (.started r))
  | list {r m} : (s.runs r).phase = .listing → s.store m ≠ .absent →
      Step s (.list r m) ((s.note (.listed r m)).spawn r (.sendStart m))
  | listEnd {r} : (s.runs r).phase = .listing →
      Step s (.listEnd r) ({ s with runs := upd s.runs r { s.runs r with phase := .finding } }.note (.listEnded r))
  | listFail {r} : (s.runs r).phase = .listing →
      Step s (.listFail r) ({ s with runs := upd s.runs r { s.runs r with phase := .failed } }.note (.listFailed r))
  | find {r c τ} : (s.runs r).phase = .finding → (c, τ) ∈ s.claims →
      Step s (.find r c) ((s.note (.found r c)).spawn r (.delay ((s.runs r).startup + recoveryDelay) c))
  | findEnd {r} : (s.runs r).phase = .finding →
      Step s (.findEnd r) ({ s with runs := upd s.runs r { s.runs r with phase := .finished } }.note (.findEnded r))
  | findFail {r} : (s.runs r).phase = .finding →
      Step s (.findFail r) ({ s with runs := upd s.runs r { s.runs r with phase := .failed } }.note (.findFailed r))
  | answer {tid r o a eff s1} : s.task tid = some ⟨r, o, none⟩ → Effect s o a eff s1 →
      Step s (.answer tid a eff) ({ s1 with task := upd s1.task tid (some ⟨r, o, some a⟩) }.note (.answer r tid o a))
  | finish {tid r o a} : s.task tid = some ⟨r, o, some a⟩ → next o a = .finish →
      Step s (.proceed tid) ({ s with task := upd s.task tid none }.note (.ended r tid))
  | goOn {tid r o a o'} : s.task tid = some ⟨r, o, some a⟩ → next o a = .goOn o' →
      Step s (.proceed tid) ({ s with task := upd s.task tid (some ⟨r, o', none⟩) }.note (.call r tid o'))
  | spawn {tid r o a o'} : s.task tid = some ⟨r, o, some a⟩ → next o a = .spawn o' →
      Step s (.proceed tid)
        (({ s with task := upd s.task tid none }.note (.spawned r tid s.tids)).spawn r o')
  | crash {r} : (s.runs r).phase ≠ .notStarted →
      Step s (.crash r) ({ s with runs := upd s.runs r { s.runs r with phase := .crashed }, task := survivors s r }.note
        (.crash r))
  | die {tid t} : s.task tid = some t →
      Step s (.die tid) ({ s with task := upd s.task tid none }.note (.died t.run tid t.op))

theorem step_cases {s : St} {act : Act} {s' : St} (h : step s act = some s') : Step s act s' := by
  unfold step at h
  split at h
  · cases h; exact .tick
  · split at h
    · cases h; exact .enqueue ‹_›
    · simp at h
  · split at h
    · cases h; exact .start ‹_›
    · simp at h
  · split at h
    · rename_i hc; cases h; exact .list hc.1 hc.2
    · simp at h
  · split at h
    · cases h; exact .listEnd ‹_›
    · simp at h
  · split at h
    · cases h; exact .listFail ‹_›
    · simp at h
  · split at h
    · rename_i hc
      cases h
      obtain ⟨h1, h2⟩ := hc
      obtain ⟨⟨c', τ⟩, h3, rfl⟩ := List.mem_map.1 h2
      exact .find h1 h3
    · simp at h
  · split at h
    · cases h; exact .findEnd ‹_›
    · simp at h
  · split at h
    · cases h; exact .findFail ‹_›
    · simp at h
  · split at h
    · rename_i ht
      rw [Option.map_eq_some_iff] at h
      obtain ⟨s1, h1, rfl⟩ := h
      exact .answer ht (effect_cases h1)
    · simp at h
  · split at h
    · rename_i ht
      cases h
      unfold St.proceed
      split <;> rename_i hn
      · exact .finish ht hn
      · exact .goOn ht hn
      · exact .spawn ht hn
    · simp at h
  · split at h
    · cases h; exact .crash ‹_›
    · simp at h
  · split at h
    · cases h; exact .die ‹_›
    · simp at h

/-- What follows an answer. -/
inductive Follows : Op → Ans → Next → Prop
  | started {m c} : Follows (.sendStart m) (.inflight c) (.goOn (.getMail c))
  | fetched {c b} : Follows (.getMail c) (.mail b) (.goOn (.transportSend c b))
  | accepted {c b} : Follows (.transportSend c b) .ok (.goOn (.sendDone c))
  | refused {c b} : Follows (.transportSend c b) .err (.goOn (.sendCancel c))
  | cancelled {c m} : Follows (.sendCancel c) (.queued m) (.spawn (.sendStart m))
  | waited {t c} : Follows (.delay t c) .ok (.goOn (.cancelFound c))
  | recovered {c m} : Follows (.cancelFound c) (.queued m) (.goOn (.sendStart m))
  | finish {o a} : Follows o a .finish

theorem next_cases {o : Op} {a : Ans} {n : Next} (h : next o a = n) : Follows o a n := by
  unfold next at h
  split at h <;> subst h <;> constructor

/-! ### Induction over executions -/

theorem Reach.mono {P Q : St → Act → Prop} (h : ∀ s a, P s a → Q s a) {s : St} (hr : Reach P s) : Reach Q s := by
  induction hr with
  | init => exact .init
  | step _ h1 h2 ih => exact .step ih (h _ _ h1) h2

theorem Reach.always {P : St → Act → Prop} {s : St} (hr : Reach P s) : Reach Always s := hr.mono fun _ _ _ => trivial

theorem exec_reach {P : St → Act → Prop} {s s' : St} {as : List Act} (hr : Reach P s)
    (hP : ∀ s a, P s a) (h : exec s as = some s') : Reach P s' := by
  induction as generalizing s with
  | nil => simp [exec] at h; exact h ▸ hr
  | cons a as ih =>
    unfold exec at h
    split at h
    · exact ih (.step hr (hP _ _) ‹_›) h
    · simp at h

@[simp] theorem note_log (s : St) (e : Ev) : (s.note e).log = s.log ++ [⟨s.now, e⟩] := rfl
@[simp] theorem spawn_log (s : St) (r : Nat) (o : Op) : (s.spawn r o).log = s.log ++ [⟨s.now, .call r s.tids o⟩] := rfl

theorem Ordered.nil {Q : List Entry → Entry → Prop} : Ordered Q [] := by
  intro pre e post h; simp at h

theorem Ordered.snoc {Q : List Entry → Entry → Prop} {log : List Entry} {e : Entry} (h : Ordered Q log) (he : Q log e) :
    Ordered Q (log ++ [e]) := by
  intro pre e' post hs
  rcases post.eq_nil_or_concat with rfl | ⟨post', x, rfl⟩
  · have := List.append_inj' hs rfl
    simp at this
    rw [← this.1, ← this.2]; exact he
  · rw [List.concat_eq_append, ← List.cons_append, ← List.append_assoc] at hs
    have := (List.append_inj' hs rfl).1
    exact h _ _ _ this

theorem Has.append {log new : List Entry} {ev : Ev} (h : Has log ev) : Has (log ++ new) ev := by
  obtain ⟨e, he, h⟩ := h
  exact ⟨e, List.mem_append_left _ he, h⟩

theorem CutOff.append {log new : List Entry} {r i : Nat} {o : Op} (h : CutOff log r i o) : CutOff (log ++ new) r i o :=
  h.imp Has.append Has.append

theorem Has.last {log : List Entry} {t : Nat} {ev : Ev} : Has (log ++ [⟨t, ev⟩]) ev := ⟨⟨t, ev⟩, by simp, rfl⟩

/-- The claims an operation or answer mentions. -/
def Op.claims : Op → List Claim
  | .sendStart _ => []
  | .getMail c => [c]
  | .transportSend c _ => [c]
  | .sendDone c => [c]
  | .sendCancel c => [c]
  | .delay _ c => [c]
  | .cancelFound c => [c]

def Ans.claims : Ans → List Claim
  | .inflight c => [c]
  | _ => []

def Task.claims (t : Task) : List Claim := t.op.claims ++ (match t.ans with | some a => a.claims | none => [])

theorem WorksOn.mem {t : Task} {c : Claim} (h : WorksOn t c) : c ∈ t.claims := by
  cases h <;> simp [Task.claims, Op.claims, Ans.claims]

/-- Everyday facts about a task. -/
structure Good (s : St) (i : Nat) (t : Task) : Prop where
  tid : i < s.tids
  work : ∀ c ∈ t.claims, ∃ τ, (c, τ) ∈ s.claims
  body : ∀ c b, t.op = .transportSend c b → b = c.mail
  mail : ∀ c b, t.op = .getMail c → t.ans = some (.mail b) → b = c.mail
  called : Has s.log (.call t.run i t.op)
  answered : ∀ a, t.ans = some a → Has s.log (.answer t.run i t.op a)
  alive : (s.runs t.run).phase ≠ .notStarted ∧ (s.runs t.run).phase ≠ .crashed

/-- Everyday facts. -/
structure Basic (s : St) : Prop where
  gen : ∀ c τ, (c, τ) ∈ s.claims → c.gen < s.gens ∧ τ ≤ s.now
  uniq : ∀ c τ c' τ', (c, τ) ∈ s.claims → (c', τ') ∈ s.claims → c.gen = c'.gen → c = c' ∧ τ = τ'
  store : ∀ m g, s.store m = .inflight g → ∃ τ, (⟨m, g⟩, τ) ∈ s.claims
  task : ∀ i t, s.task i = some t → Good s i t

theorem Good.mono {s s' : St} {i : Nat} {t : Task} (h : Good s i t) (htid : s.tids ≤ s'.tids)
    (hc : ∀ x ∈ s.claims, x ∈ s'.claims) (hlog : ∀ ev, Has s.log ev → Has s'.log ev)
    (hrun : (s.runs t.run).phase ≠ .notStarted ∧ (s.runs t.run).phase ≠ .crashed →
      (s'.runs t.run).phase ≠ .notStarted ∧ (s'.runs t.run).phase ≠ .crashed) : Good s' i t where
  tid := Nat.lt_of_lt_of_le h.tid htid
  work c hm := by obtain ⟨τ, h1⟩ := h.work c hm; exact ⟨τ, hc _ h1⟩
  body := h.body
  mail := h.mail
  called := hlog _ h.called
  answered a ha := hlog _ (h.answered a ha)
  alive := hrun h.alive

theorem Basic.update {s s' : St} (h : Basic s) (hg : s'.gens = s.gens) (hc : s'.claims = s.claims)
    (hn : s.now ≤ s'.now) (hs : ∀ m g, s'.store m = .inflight g → s.store m = .inflight g)
    (ht : ∀ i t, s'.task i = some t → Good s' i t) : Basic s' where
  gen c τ hm := by rw [hc] at hm; rw [hg]; have := h.gen c τ hm; omega
  uniq c τ c' τ' h1 h2 := by rw [hc] at h1 h2; exact h.uniq c τ c' τ' h1 h2
  store m g hm := by rw [hc]; exact h.store m g (hs m g hm)
  task := ht

theorem Basic.take {s : St} (h : Basic s) (m : MailId) : Basic (s.take m) where
  gen c τ hm := by
    simp only [St.take, List.mem_cons, Prod.mk.injEq] at hm ⊢
    rcases hm with ⟨rfl, rfl⟩ | hm
    · simp
    · have := h.gen c τ hm; omega
  uniq c τ c' τ' h1 h2 he := by
    simp only [St.take, List.mem_cons, Prod.mk.injEq] at h1 h2
    rcases h1 with ⟨rfl, rfl⟩ | h1 <;> rcases h2 with ⟨rfl, rfl⟩ | h2
    · exact ⟨rfl, rfl⟩
    · have := h.gen _ _ h2; simp at he; omega
    · have := h.gen _ _ h1; simp at he; omega
    · exact h.uniq _ _ _ _ h1 h2 he
  store m' g hm := by
    simp only [St.take, upd] at hm ⊢
    split at hm
    · rename_i e
      cases hm
      subst e
      exact ⟨s.now, by simp⟩
    · obtain ⟨τ, h1⟩ := h.store m' g hm
      exact ⟨τ, by simp [h1]⟩
  task i t ht := (h.task i t ht).mono (Nat.le_refl _) (fun x hx => List.mem_cons_of_mem _ hx) (fun _ h => h) (fun h => h)

/-- The storage part of an answer leaves the rest alone. -/
theorem Effect.same {s s1 : St} {o : Op} {a : Ans} {eff : Bool} (h : Effect s o a eff s1) :
    s1.task = s.task ∧ s1.tids = s.tids ∧ s1.log = s.log ∧ s1.runs = s.runs ∧ s1.now = s.now := by
  cases h <;> exact ⟨rfl, rfl, rfl, rfl, rfl⟩

theorem Effect.basic {s s1 : St} {o : Op} {a : Ans} {eff : Bool} (h : Effect s o a eff s1) (hb : Basic s) : Basic s1 := by
  have hstore : ∀ (k : MailId) (v : Loc), (∀ g, v ≠ .inflight g) → Basic { s with store := upd s.store k v } := by
    intro k v hv
    refine hb.update rfl rfl (Nat.le_refl _) ?_ (fun i t ht => (hb.task i t ht).mono (Nat.le_refl _) (fun _ h => h) (fun _ h => h) (fun h => h))
    intro m g hm
    simp only [upd] at hm
    split at hm
    · exact absurd hm (hv g)
    · exact hm
  cases h with
  | take h1 h2 => exact hb.take _
  | fetched => exact hb
  | sent _ => exact hb
  | done h1 h2 => exact hstore _ _ (by simp)
  | cancelled h1 h2 => exact hstore _ _ (by simp)
  | recovered h1 h2 => exact hstore _ _ (by simp)
  | waited _ => exact hb
  | failed _ => exact hb

theorem Good.fresh {s : St} {i r : Nat} {o : Op} (h1 : i < s.tids) (h2 : ∀ c ∈ o.claims, ∃ τ, (c, τ) ∈ s.claims)
    (h3 : ∀ c b, o = .transportSend c b → b = c.mail) (h4 : Has s.log (.call r i o))
    (h5 : (s.runs r).phase ≠ .notStarted ∧ (s.runs r).phase ≠ .crashed) : Good s i ⟨r, o, none⟩ where
  tid := h1
  work c hm := h2 c (by simpa [Task.claims] using hm)
  body := h3
  mail := by simp
  called := h4
  answered := by simp
  alive := h5

theorem Step.basic {s s' : St} {act : Act} (h : Step s act s') (hb : Basic s) : Basic s' := by
  cases h with
  | tick =>
    exact hb.update rfl rfl (by simp) (fun _ _ h => h)
      fun i t ht => (hb.task i t ht).mono (Nat.le_refl _) (fun _ h => h) (fun _ h => h) (fun h => h)
  | enqueue h1 =>
    refine hb.update rfl rfl (Nat.le_refl _) ?_
      fun i t ht => (hb.task i t ht).mono (Nat.le_refl _) (fun _ h => h) (fun _ h => h.append) (fun h => h)
    intro m' g hm
    simp only [St.note, upd] at hm
    split at hm
    · simp at hm
    · exact hm
  | start h1 =>
    refine hb.update rfl rfl (Nat.le_refl _) (fun _ _ h => h)
      fun i t ht => (hb.task i t ht).mono (Nat.le_refl _) (fun _ h => h) (fun _ h => h.append) ?_
    intro h
    simp only [St.note, upd]
    split
    · simp
    · exact h
  | listEnd h1 =>
    refine hb.update rfl rfl (Nat.le_refl _) (fun _ _ h => h)
      fun i t ht => (hb.task i t ht).mono (Nat.le_refl _) (fun _ h => h) (fun _ h => h.append) ?_
    intro h
    simp only [St.note, upd]
    split
    · simp
    · exact h
  | listFail h1 =>
    refine hb.update rfl rfl (Nat.le_refl _) (fun _ _ h => h)
      fun i t ht => (hb.task i t ht).mono (Nat.le_refl _) (fun _ h => h) (fun _ h => h.append) ?_
    intro h
    simp only [St.note, upd]
    split
    · simp
    · exact h
  | findEnd h1 =>
    refine hb.update rfl rfl (Nat.le_refl _) (fun _ _ h => h)
      fun i t ht => (hb.task i t ht).mono (Nat.le_refl _) (fun _ h => h) (fun _ h => h.append) ?_
    intro h
    simp only [St.note, upd]
    split
    · simp
    · exact h
  | findFail h1 =>
    refine hb.update rfl rfl (Nat.le_refl _) (fun _ _ h => h)
      fun i t ht => (hb.task i t ht).mono (Nat.le_refl _) (fun _ h => h) (fun _ h => h.append) ?_
    intro h
    simp only [St.note, upd]
    split
    · simp
    · exact h
  | list h1 h2 =>
    refine hb.update rfl rfl (Nat.le_refl _) (fun _ _ h => h) fun i t ht => ?_
    rcases upd_eq_some ht with ⟨rfl, h⟩ | ⟨hne, h⟩
    · cases h
      exact .fresh (Nat.lt_succ_self _) (by simp [Op.claims]) (by simp) Has.last
        (by show (s.runs _).phase ≠ _ ∧ (s.runs _).phase ≠ _; simp [h1])
    · exact (hb.task i t h).mono (Nat.le_succ _) (fun _ h => h) (fun _ h => h.append.append) (fun h => h)
  | find h1 h2 =>
    refine hb.update rfl rfl (Nat.le_refl _) (fun _ _ h => h) fun i t ht => ?_
    rcases upd_eq_some ht with ⟨rfl, h⟩ | ⟨hne, h⟩
    · cases h
      exact .fresh (Nat.lt_succ_self _) (by simp only [Op.claims, List.mem_singleton]; rintro c rfl; exact ⟨_, h2⟩) (by simp) Has.last
        (by show (s.runs _).phase ≠ _ ∧ (s.runs _).phase ≠ _; simp [h1])
    · exact (hb.task i t h).mono (Nat.le_succ _) (fun _ h => h) (fun _ h => h.append.append) (fun h => h)
  | @answer tid r o a eff s1 h1 he =>
    have hb1 := he.basic hb
    obtain ⟨e1, e2, e3, e4, e5⟩ := he.same
    refine hb1.update rfl rfl (Nat.le_refl _) (fun _ _ h => h) fun i t ht => ?_
    rcases upd_eq_some ht with ⟨rfl, h⟩ | ⟨hne, h⟩
    · cases h
      have hg := hb1.task i _ (e1 ▸ h1)
      refine ⟨hg.tid, ?_, hg.body, ?_, hg.called.append, ?_, hg.alive⟩
      · intro c hm
        simp only [Task.claims, List.mem_append] at hm
        rcases hm with hm | hm
        · exact hg.work c (by simp [Task.claims, hm])
        · cases a with
          | inflight c' =>
            simp only [Ans.claims, List.mem_singleton] at hm
            subst hm
            cases he with
            | take h2 h3 =>
              rcases h3 with h3 | h3 <;> cases h3
              exact ⟨s.now, by simp [St.take, St.note]⟩
            | sent h3 => rcases h3 with h3 | h3 <;> cases h3
            | done _ h3 => rcases h3 with h3 | h3 <;> cases h3
            | cancelled _ h3 => rcases h3 with h3 | h3 <;> cases h3
            | recovered _ h3 => rcases h3 with h3 | h3 <;> simp at h3
          | _ => simp [Ans.claims] at hm
      · intro c b ho ha
        simp only at ho
        subst ho
        simp only [Option.some.injEq] at ha
        subst ha
        cases he
        rfl
      · intro a' ha
        cases ha
        exact Has.last
    · exact (hb1.task i t h).mono (Nat.le_refl _) (fun _ h => h) (fun _ h => h.append) (fun h => h)
  | finish h1 h2 =>
    refine hb.update rfl rfl (Nat.le_refl _) (fun _ _ h => h) fun i t ht => ?_
    rcases upd_eq_some ht with ⟨rfl, h⟩ | ⟨hne, h⟩
    · cases h
    · exact (hb.task i t h).mono (Nat.le_refl _) (fun _ h => h) (fun _ h => h.append) (fun h => h)
  | goOn h1 h2 =>
    refine hb.update rfl rfl (Nat.le_refl _) (fun _ _ h => h) fun i t ht => ?_
    rcases upd_eq_some ht with ⟨rfl, h⟩ | ⟨hne, h⟩
    · cases h
      have hg := hb.task i _ h1
      refine .fresh hg.tid ?_ ?_ Has.last hg.alive
      · intro c hm
        have hw := hg.work c
        cases next_cases h2 <;> simp_all [Op.claims, Task.claims, Ans.claims, St.note]
      · intro c b ho
        subst ho
        cases next_cases h2 with
        | fetched => exact hg.mail _ _ rfl rfl
    · exact (hb.task i t h).mono (Nat.le_refl _) (fun _ h => h) (fun _ h => h.append) (fun h => h)
  | spawn h1 h2 =>
    refine hb.update rfl rfl (Nat.le_refl _) (fun _ _ h => h) fun i t ht => ?_
    rcases upd_eq_some ht with ⟨rfl, h⟩ | ⟨hne, h⟩
    · cases h
      have hg := hb.task _ _ h1
      refine .fresh (Nat.lt_succ_self _) ?_ ?_ Has.last hg.alive
      · intro c hm
        cases next_cases h2; simp [Op.claims] at hm
      · intro c b ho
        subst ho
        cases next_cases h2
    · rcases upd_eq_some (f := s.task) (v := none) h with ⟨rfl, h9⟩ | ⟨hne, h⟩
      · cases h9
      · exact (hb.task i t h).mono (Nat.le_succ _) (fun _ h => h) (fun _ h => h.append.append) (fun h => h)
  | crash h1 =>
    refine hb.update rfl rfl (Nat.le_refl _) (fun _ _ h => h) fun i t ht => ?_
    obtain ⟨h, hr⟩ := survivors_some ht
    refine (hb.task i t h).mono (Nat.le_refl _) (fun _ h => h) (fun _ h => h.append) ?_
    intro h
    simp only [St.note, upd]
    rw [if_neg hr]
    exact h
  | die h1 =>
    refine hb.update rfl rfl (Nat.le_refl _) (fun _ _ h => h) fun i t ht => ?_
    rcases upd_eq_some ht with ⟨rfl, h⟩ | ⟨hne, h⟩
    · cases h
    · exact (hb.task i t h).mono (Nat.le_refl _) (fun _ h => h) (fun _ h => h.append) (fun h => h)

theorem Basic.init : Basic init where
  gen := by simp [Queue.init]
  uniq := by simp [Queue.init]
  store := by simp [Queue.init]
  task := by simp [Queue.init]

theorem Reach.basic {P : St → Act → Prop} {s : St} (h : Reach P s) : Basic s := by
  induction h with
  | init => exact .init
  | step _ _ h ih => exact (step_cases h).basic ih

theorem Justified.append {l new : List Entry} {r i : Nat} {o : Op} (h : Justified l r i o) : Justified (l ++ new) r i o := by
  cases h with
  | listed h => exact .listed h.append
  | retry h1 h2 => exact .retry h1.append h2.append
  | recovered h => exact .recovered h.append
  | fetch h => exact .fetch h.append
  | send h1 h2 => exact .send h1.append h2.append
  | done h1 h2 => exact .done h1.append h2.append
  | cancel h1 h2 => exact .cancel h1.append h2.append
  | wait h => exact .wait h.append
  | recover h => exact .recover h.append

theorem Has.mem {l : List Entry} {t : Nat} {ev : Ev} (h : (⟨t, ev⟩ : Entry) ∈ l) : Has l ev := ⟨_, h, rfl⟩

/-- The record of an action. -/
theorem Step.log {s s' : St} {act : Act} (h : Step s act s') : ∃ new, s'.log = s.log ++ new := by
  cases h with
  | tick => exact ⟨[], by simp⟩
  | answer h1 he => obtain ⟨e1, e2, e3, e4, e5⟩ := he.same; exact ⟨_, by rw [note_log, e3]⟩
  | list => exact ⟨_, by rw [spawn_log, note_log, List.append_assoc]⟩
  | find => exact ⟨_, by rw [spawn_log, note_log, List.append_assoc]⟩
  | spawn => exact ⟨_, by rw [spawn_log, note_log, List.append_assoc]⟩
  | _ => exact ⟨_, rfl⟩

/-- How a task comes to be what it is after an action. -/
inductive Became (s : St) : Act → St → Nat → Task → Prop
  | same {act s' i t} : s.task i = some t → Became s act s' i t
  | listed {r m s'} : s'.log = s.log ++ [⟨s.now, .listed r m⟩, ⟨s.now, .call r s.tids (.sendStart m)⟩] →
      (s.runs r).phase = .listing → s.store m ≠ .absent → Became s (.list r m) s' s.tids ⟨r, .sendStart m, none⟩
  | found {r c τ s'} :
      s'.log = s.log ++ [⟨s.now, .found r c⟩, ⟨s.now, .call r s.tids (.delay ((s.runs r).startup + recoveryDelay) c)⟩] →
      (s.runs r).phase = .finding → (c, τ) ∈ s.claims →
      Became s (.find r c) s' s.tids ⟨r, .delay ((s.runs r).startup + recoveryDelay) c, none⟩
  | answered {i r o a eff s1 s'} : s'.log = s.log ++ [⟨s.now, .answer r i o a⟩] → s.task i = some ⟨r, o, none⟩ →
      Effect s o a eff s1 → s'.store = s1.store → s'.claims = s1.claims →
      Became s (.answer i a eff) s' i ⟨r, o, some a⟩
  | goOn {i r o a o' s'} : s'.log = s.log ++ [⟨s.now, .call r i o'⟩] → s.task i = some ⟨r, o, some a⟩ →
      Follows o a (.goOn o') → Became s (.proceed i) s' i ⟨r, o', none⟩
  | spawned {i r o a o' s'} : s'.log = s.log ++ [⟨s.now, .spawned r i s.tids⟩, ⟨s.now, .call r s.tids o'⟩] →
      s.task i = some ⟨r, o, some a⟩ → Follows o a (.spawn o') → Became s (.proceed i) s' s.tids ⟨r, o', none⟩

theorem Step.became {s s' : St} {act : Act} (h : Step s act s') {i : Nat} {t : Task} (ht : s'.task i = some t) :
    Became s act s' i t := by
  cases h with
  | list h1 h2 =>
    rcases upd_eq_some ht with ⟨rfl, h⟩ | ⟨hne, h⟩
    · cases h
      exact .listed (by simp; exact ⟨rfl, rfl⟩) h1 h2
    · exact .same h
  | find h1 h2 =>
    rcases upd_eq_some ht with ⟨rfl, h⟩ | ⟨hne, h⟩
    · cases h
      exact .found (by simp; exact ⟨rfl, rfl⟩) h1 h2
    · exact .same h
  | answer h1 he =>
    obtain ⟨e1, e2, e3, e4, e5⟩ := he.same
    rcases upd_eq_some ht with ⟨rfl, h⟩ | ⟨hne, h⟩
    · cases h
      refine .answered ?_ h1 he rfl rfl
      rw [note_log, e3]; simp only [e5]
    · exact .same (e1 ▸ h)
  | finish h1 h2 =>
    rcases upd_eq_some ht with ⟨rfl, h⟩ | ⟨hne, h⟩
    · cases h
    · exact .same h
  | goOn h1 h2 =>
    rcases upd_eq_some ht with ⟨rfl, h⟩ | ⟨hne, h⟩
    · cases h
      exact .goOn rfl h1 (next_cases h2)
    · exact .same h
  | spawn h1 h2 =>
    rcases upd_eq_some ht with ⟨rfl, h⟩ | ⟨hne, h⟩
    · cases h
      exact .spawned (by simp; exact ⟨rfl, rfl⟩) h1 (next_cases h2)
    · rcases upd_eq_some (f := s.task) (v := none) h with ⟨rfl, h9⟩ | ⟨hne, h⟩
      · cases h9
      · exact .same h
  | crash h1 => exact .same (survivors_some ht).1
  | die h1 =>
    rcases upd_eq_some ht with ⟨rfl, h⟩ | ⟨hne, h⟩
    · cases h
    · exact .same h
  | _ => exact .same ht

/-- What an execution did to a task. -/
structure Past (s : St) (i : Nat) (t : Task) : Prop where
  just : Justified s.log t.run i t.op
  back : ∀ c, t.op = .sendCancel c ∨ t.op = .cancelFound c → ∀ m, t.ans = some (.queued m) → m = c.mail
  claim : ∀ m c, t.op = .sendStart m → t.ans = some (.inflight c) → m = c.mail

theorem Reach.past {P : St → Act → Prop} {s : St} (h : Reach P s) : ∀ i t, s.task i = some t → Past s i t := by
  induction h with
  | init => intro i t h; simp [Queue.init] at h
  | @step s s' act hr _ hs ih =>
    have hst := step_cases hs
    intro i t ht
    obtain ⟨new, hlog⟩ := hst.log
    cases hst.became ht with
    | same h =>
      have := ih i t h
      exact ⟨hlog ▸ this.just.append, this.back, this.claim⟩
    | listed h1 => exact ⟨.listed (Has.mem (t := s.now) (by rw [h1]; simp)), by simp, by simp⟩
    | found h1 => exact ⟨.wait (Has.mem (t := s.now) (by rw [h1]; simp)), by simp, by simp⟩
    | answered h1 h2 h3 =>
      have := ih _ _ h2
      refine ⟨hlog ▸ this.just.append, ?_, ?_⟩
      · rintro c (h | h) m hm <;> simp only at h <;> subst h <;> simp only [Option.some.injEq] at hm <;> subst hm
        · cases h3 with
          | cancelled _ h => simpa using h
        · cases h3 with
          | recovered _ h => simpa using h
      · intro m c h hm
        simp only at h; subst h; simp only [Option.some.injEq] at hm; subst hm
        cases h3 with
        | take _ h =>
          simp only [Ans.inflight.injEq, reduceCtorEq, or_false] at h
          rw [h]
    | goOn h1 h2 h3 =>
      have hp := ih _ _ h2
      have hg := (hr.basic).task _ _ h2
      have ha : Has s'.log (.answer _ _ _ _) := h1 ▸ (hg.answered _ rfl).append
      refine ⟨?_, by simp, by simp⟩
      cases h3 with
      | started =>
        have := hp.claim _ _ rfl rfl
        subst this
        exact .fetch ha
      | fetched =>
        have := hg.mail _ _ rfl rfl
        subst this
        have hj := hp.just
        cases hj with
        | fetch h => exact .send (h1 ▸ h.append) ha
      | accepted =>
        have := hg.body _ _ rfl
        subst this
        cases hp.just with
        | send h _ => exact .done (h1 ▸ h.append) ha
      | refused =>
        have := hg.body _ _ rfl
        subst this
        cases hp.just with
        | send h _ => exact .cancel (h1 ▸ h.append) ha
      | waited => exact .recover ha
      | recovered =>
        have := hp.back _ (.inr rfl) _ rfl
        subst this
        exact .recovered ha
    | spawned h1 h2 h3 =>
      have hp := ih _ _ h2
      have hg := (hr.basic).task _ _ h2
      refine ⟨?_, by simp, by simp⟩
      cases h3 with
      | cancelled =>
        have := hp.back _ (.inl rfl) _ rfl
        subst this
        exact .retry (h1 ▸ (hg.answered _ rfl).append) (Has.mem (t := s.now) (by rw [h1]; simp))

/-! ### Records -/

theorem Ordered.step {Q : List Entry → Entry → Prop} {s s' : St} {act : Act} (h : Step s act s') (ho : Ordered Q s.log)
    (hq : ∀ e pre new, s'.log = s.log ++ new → (∃ p, pre = s.log ++ p) → (∃ x y, new = x ++ e :: y ∧ pre = s.log ++ x) → Q pre e) :
    Ordered Q s'.log := by
  obtain ⟨new, hlog⟩ := h.log
  intro pre e post hs
  rw [hlog, List.append_eq_append_iff] at hs
  rcases hs with ⟨x, h1, h2⟩ | ⟨x, h1, h2⟩
  · exact hq e pre new hlog ⟨x, h1⟩ ⟨x, post, h2, h1⟩
  · cases x with
    | nil =>
      simp only [List.append_nil] at h1
      exact hq e pre new hlog ⟨[], by simp [h1]⟩ ⟨[], post, h2.symm, by simp [h1]⟩
    | cons y ys =>
      simp only [List.cons_append, List.cons.injEq] at h2
      exact ho pre e ys (by rw [h1, h2.1])

theorem Has.before {l : List Entry} {e : Entry} {ev : Ev} (h : Has (l ++ [e]) ev) (hne : e.ev ≠ ev) : Has l ev := by
  obtain ⟨x, h1, h2⟩ := h
  simp only [List.mem_append, List.mem_singleton] at h1
  rcases h1 with h1 | rfl
  · exact ⟨x, h1, h2⟩
  · exact absurd h2 hne

theorem Justified.before {l : List Entry} {t r i r' i' : Nat} {o o' : Op}
    (h : Justified (l ++ [⟨t, .call r' i' o'⟩]) r i o) : Justified l r i o := by
  cases h with
  | listed h => exact .listed (h.before (by simp))
  | retry h1 h2 => exact .retry (h1.before (by simp)) (h2.before (by simp))
  | recovered h => exact .recovered (h.before (by simp))
  | fetch h => exact .fetch (h.before (by simp))
  | send h1 h2 => exact .send (h1.before (by simp)) (h2.before (by simp))
  | done h1 h2 => exact .done (h1.before (by simp)) (h2.before (by simp))
  | cancel h1 h2 => exact .cancel (h1.before (by simp)) (h2.before (by simp))
  | wait h => exact .wait (h.before (by simp))
  | recover h => exact .recover (h.before (by simp))

/-- An action makes at most one call, recorded last, by a task that then waits for the answer. -/
theorem Step.calls {Q : List Entry → Entry → Prop} {s s' : St} {act : Act} (h : Step s act s') (ho : Ordered Q s.log)
    (h0 : ∀ pre e, (∀ r i o, e.ev ≠ .call r i o) → Q pre e)
    (h1 : ∀ l r i o, s'.log = l ++ [⟨s.now, .call r i o⟩] → (∃ x, l = s.log ++ x) → s'.task i = some ⟨r, o, none⟩ →
      Q l ⟨s.now, .call r i o⟩) : Ordered Q s'.log := by
  cases h with
  | tick => exact ho
  | list => exact (ho.snoc (h0 _ _ (by simp))).snoc (h1 _ _ _ _ rfl ⟨_, rfl⟩ (by simp [St.spawn, St.note]))
  | find => exact (ho.snoc (h0 _ _ (by simp))).snoc (h1 _ _ _ _ rfl ⟨_, rfl⟩ (by simp [St.spawn, St.note]))
  | spawn => exact (ho.snoc (h0 _ _ (by simp))).snoc (h1 _ _ _ _ rfl ⟨_, rfl⟩ (by simp [St.spawn, St.note]))
  | goOn => exact ho.snoc (h1 _ _ _ _ rfl ⟨[], by simp⟩ (by simp [St.note]))
  | answer h1 he => obtain ⟨e1, e2, e3, e4, e5⟩ := he.same; rw [note_log]; simp only [e3]; exact ho.snoc (h0 _ _ (by simp))
  | _ => exact ho.snoc (h0 _ _ (by simp))

/-- Only calls matter to this. -/
theorem Reach.calls {P : St → Act → Prop} {Q : List Entry → Entry → Prop} {s : St} (hr : Reach P s)
    (h0 : ∀ pre e, (∀ r i o, e.ev ≠ .call r i o) → Q pre e)
    (h1 : ∀ s act s' l r i o, Reach P s → P s act → Step s act s' → Reach P s' → s'.log = l ++ [⟨s.now, .call r i o⟩] →
      (∃ x, l = s.log ++ x) → s'.task i = some ⟨r, o, none⟩ → Q l ⟨s.now, .call r i o⟩) : Ordered Q s.log := by
  induction hr with
  | init => exact Ordered.nil
  | @step s s' act hr hp hs ih =>
    exact (step_cases hs).calls ih h0 fun l r i o h2 h3 h4 =>
      h1 s act s' l r i o hr hp (step_cases hs) (.step hr hp hs) h2 h3 h4

/-- Every call is justified. -/
theorem Reach.protocol {P : St → Act → Prop} {s : St} (hr : Reach P s) :
    Ordered (fun pre e => ∀ r i o, e.ev = .call r i o → Justified pre r i o) s.log := by
  refine hr.calls (fun pre e he r i o h => absurd h (he r i o)) ?_
  intro s act s' l r i o _ _ _ hr' hl _ ht r' i' o' he
  cases he
  have := (hr'.past _ _ ht).just
  rw [hl] at this
  exact this.before

/-- Likewise for answers: an action records at most one. -/
theorem Step.answers {Q : List Entry → Entry → Prop} {s s' : St} {act : Act} (h : Step s act s') (ho : Ordered Q s.log)
    (h0 : ∀ pre e, (∀ r i o a, e.ev ≠ .answer r i o a) → Q pre e)
    (h1 : ∀ r i o a, s'.log = s.log ++ [⟨s.now, .answer r i o a⟩] → s.task i = some ⟨r, o, none⟩ →
      s'.task i = some ⟨r, o, some a⟩ → Q s.log ⟨s.now, .answer r i o a⟩) : Ordered Q s'.log := by
  cases h with
  | tick => exact ho
  | list => exact (ho.snoc (h0 _ _ (by simp))).snoc (h0 _ _ (by simp))
  | find => exact (ho.snoc (h0 _ _ (by simp))).snoc (h0 _ _ (by simp))
  | spawn => exact (ho.snoc (h0 _ _ (by simp))).snoc (h0 _ _ (by simp))
  | answer h2 he =>
    obtain ⟨e1, e2, e3, e4, e5⟩ := he.same
    rw [note_log]
    simp only [e3, e5]
    exact ho.snoc (h1 _ _ _ _ (by rw [note_log]; simp only [e3, e5]) h2 (by simp [St.note]))
  | _ => exact ho.snoc (h0 _ _ (by simp))

/-! ### The storage -/

/-- Where a mail is, against the record. -/
structure Kept (s : St) : Prop where
  gone : ∀ m, s.store m = .gone → Accepted s.log m
  there : ∀ m, Has s.log (.enqueued m) → s.store m ≠ .absent
  back : ∀ m, s.store m ≠ .absent → Has s.log (.enqueued m)
  done : ∀ r i c, Has s.log (.answer r i (.sendDone c) .ok) → s.store c.mail = .gone

theorem Accepted.append {l new : List Entry} {m : MailId} (h : Accepted l m) : Accepted (l ++ new) m := by
  obtain ⟨e, he, h⟩ := h
  exact ⟨e, List.mem_append_left _ he, h⟩

theorem Kept.quiet {s s' : St} {t : Nat} {ev : Ev} (h : Kept s) (hs : s'.store = s.store) (hl : s'.log = s.log ++ [⟨t, ev⟩])
    (h1 : ∀ m, ev ≠ .enqueued m) (h2 : ∀ r i c, ev ≠ .answer r i (.sendDone c) .ok) : Kept s' where
  gone m hm := by rw [hl]; exact (h.gone m (hs ▸ hm)).append
  there m hm := by rw [hs]; rw [hl] at hm; exact h.there m (hm.before (h1 m))
  back m hm := by rw [hl]; exact (h.back m (hs ▸ hm)).append
  done r i c hm := by rw [hs]; rw [hl] at hm; exact h.done r i c (hm.before (h2 r i c))

theorem Effect.store {s s1 : St} {o : Op} {a : Ans} {eff : Bool} (h : Effect s o a eff s1) (m : MailId) :
    (s.store m = .absent ↔ s1.store m = .absent) ∧ (s.store m = .gone → s1.store m = .gone) := by
  cases h with
  | take h1 h2 =>
    simp only [St.take, upd]
    split
    · rename_i h; subst h; rw [h1]; simp
    · simp
  | done h1 h2 =>
    simp only [upd]
    split
    · rename_i h; subst h; rw [h1]; simp
    · simp
  | cancelled h1 h2 =>
    simp only [upd]
    split
    · rename_i h; subst h; rw [h1]; simp
    · simp
  | recovered h1 h2 =>
    simp only [upd]
    split
    · rename_i h; subst h; rw [h1]; simp
    · simp
  | _ => simp

theorem Reach.kept {P : St → Act → Prop} {s : St} (hr : Reach P s) : Kept s := by
  induction hr with
  | init => constructor <;> simp [Queue.init, Has]
  | @step s s' act hr _ hs ih =>
    cases step_cases hs with
    | tick => exact ⟨ih.gone, ih.there, ih.back, ih.done⟩
    | @enqueue m h1 =>
      have hst : ∀ m', m' ≠ m → upd s.store m .queued m' = s.store m' := fun m' h => upd_ne _ _ h
      refine ⟨?_, ?_, ?_, ?_⟩
      · intro m' hm
        by_cases h : m' = m
        · subst h; simp [St.note] at hm
        · exact (ih.gone m' ((hst m' h) ▸ hm)).append
      · intro m' hm
        by_cases h : m' = m
        · subst h; simp [St.note]
        · simp only [St.note, hst m' h]; exact ih.there m' (Has.before hm (by simp; exact fun h' => h h'.symm))
      · intro m' hm
        by_cases h : m' = m
        · subst h; exact Has.last
        · exact (ih.back m' ((hst m' h) ▸ hm)).append
      · intro r i c hm
        have h2 := ih.done r i c (hm.before (by simp))
        have : c.mail ≠ m := by intro h; rw [h, h1] at h2; cases h2
        simp only [St.note, hst _ this, h2]
    | list h1 h2 => exact (ih.quiet (s' := s.note _) rfl rfl (by simp) (by simp)).quiet rfl rfl (by simp) (by simp)
    | find h1 h2 => exact (ih.quiet (s' := s.note _) rfl rfl (by simp) (by simp)).quiet rfl rfl (by simp) (by simp)
    | spawn h1 h2 => exact (ih.quiet (s' := s.note _) rfl rfl (by simp) (by simp)).quiet rfl rfl (by simp) (by simp)
    | @answer i r o a eff s1 h1 he =>
      obtain ⟨e1, e2, e3, e4, e5⟩ := he.same
      have hst := he.store
      refine ⟨?_, ?_, ?_, ?_⟩
      · intro m hm
        rw [note_log]
        refine Accepted.append ?_
        simp only [e3]
        by_cases hg : s.store m = .gone
        · exact ih.gone m hg
        · cases he with
          | @done c _ _ h2 h3 =>
            simp only [St.note, upd] at hm
            split at hm
            · rename_i h; subst h
              cases (hr.past _ _ h1).just with
              | done _ h => obtain ⟨e, h4, h5⟩ := h; exact ⟨e, h4, _, _, _, h5⟩
            · exact absurd hm hg
          | take h2 h3 =>
            simp only [St.note, St.take, upd] at hm
            split at hm
            · cases hm
            · exact absurd hm hg
          | cancelled h2 h3 =>
            simp only [St.note, upd] at hm
            split at hm
            · cases hm
            · exact absurd hm hg
          | recovered h2 h3 =>
            simp only [St.note, upd] at hm
            split at hm
            · cases hm
            · exact absurd hm hg
          | _ => exact absurd hm hg
      · intro m hm hab
        rw [note_log] at hm
        simp only [e3] at hm
        exact ih.there m (hm.before (by simp)) ((hst m).1.2 hab)
      · intro m hm
        rw [note_log]
        simp only [e3]
        exact (ih.back m (fun h => hm ((hst m).1.1 h))).append
      · intro r' i' c hm
        rw [note_log] at hm
        simp only [e3] at hm
        by_cases h : Has s.log (.answer r' i' (.sendDone c) .ok)
        · exact (hst _).2 (ih.done _ _ _ h)
        · obtain ⟨e, h2, h3⟩ := hm
          simp only [List.mem_append, List.mem_singleton] at h2
          rcases h2 with h2 | rfl
          · exact absurd ⟨e, h2, h3⟩ h
          · simp only [Ev.answer.injEq] at h3
            obtain ⟨rfl, rfl, rfl, rfl⟩ := h3
            cases he with
            | done => simp [St.note]
    | _ => exact ih.quiet rfl rfl (by simp) (by simp)

/-! ### What follows an answer -/

/-- What a task does with its answer, in the record. -/
def Reacted (r i : Nat) (post : List Entry) : Next → Prop
  | .finish => Has post (.ended r i)
  | .goOn o => Has post (.call r i o)
  | .spawn o => ∃ t j mid post', post = mid ++ ⟨t, .spawned r i j⟩ :: ⟨t, .call r j o⟩ :: post'

theorem Reacted.append {r i : Nat} {post new : List Entry} {n : Next} (h : Reacted r i post n) :
    Reacted r i (post ++ new) n := by
  cases n with
  | finish => exact Has.append h
  | goOn o => exact Has.append h
  | spawn o => obtain ⟨t, j, mid, post', rfl⟩ := h; exact ⟨t, j, mid, post' ++ new, by simp⟩

theorem split_log {l new pre post : List Entry} {e : Entry} (h : l ++ new = pre ++ e :: post) :
    (∃ post0, l = pre ++ e :: post0 ∧ post = post0 ++ new) ∨ (∃ x, pre = l ++ x ∧ new = x ++ e :: post) := by
  rw [List.append_eq_append_iff] at h
  rcases h with ⟨x, h1, h2⟩ | ⟨x, h1, h2⟩
  · exact .inr ⟨x, h1, h2⟩
  · cases x with
    | nil => exact .inr ⟨[], by simpa using h1.symm, by simpa using h2.symm⟩
    | cons y ys =>
      simp only [List.cons_append, List.cons.injEq] at h2
      exact .inl ⟨ys, by rw [h1, h2.1], h2.2⟩

/-- A task with an answer keeps it until it goes on or crashes. -/
theorem Step.pending {s s' : St} {act : Act} (h : Step s act s') (hb : Basic s) {new : List Entry}
    (hl : s'.log = s.log ++ new) {i r : Nat} {o : Op} {a : Ans} (ht : s.task i = some ⟨r, o, some a⟩) :
    s'.task i = some ⟨r, o, some a⟩ ∨ CutOff new r i o ∨ Reacted r i new (next o a) := by
  have hlt : i < s.tids := (hb.task i _ ht).tid
  cases h with
  | tick => exact .inl ht
  | list h1 h2 => exact .inl (by simp only [St.spawn, St.note]; rw [upd_ne _ _ (by omega)]; exact ht)
  | find h1 h2 => exact .inl (by simp only [St.spawn, St.note]; rw [upd_ne _ _ (by omega)]; exact ht)
  | @answer tid r' o' a' eff s1 h1 he =>
    obtain ⟨e1, e2, e3, e4, e5⟩ := he.same
    refine .inl ?_
    simp only [St.note]
    by_cases h : i = tid
    · subst h; rw [h1] at ht; cases ht
    · rw [upd_ne _ _ h, e1]; exact ht
  | @finish tid r' o' a' h1 h2 =>
    by_cases h : i = tid
    · subst h
      rw [h1] at ht
      cases ht
      rw [h2]
      simp only [note_log, List.append_cancel_left_eq] at hl
      subst hl
      exact .inr (.inr ⟨_, List.mem_singleton.2 rfl, rfl⟩)
    · exact .inl (by simp only [St.note]; rw [upd_ne _ _ h]; exact ht)
  | @goOn tid r' o' a' o'' h1 h2 =>
    by_cases h : i = tid
    · subst h
      rw [h1] at ht
      cases ht
      rw [h2]
      simp only [note_log, List.append_cancel_left_eq] at hl
      subst hl
      exact .inr (.inr ⟨_, List.mem_singleton.2 rfl, rfl⟩)
    · exact .inl (by simp only [St.note]; rw [upd_ne _ _ h]; exact ht)
  | @spawn tid r' o' a' o'' h1 h2 =>
    by_cases h : i = tid
    · subst h
      rw [h1] at ht
      cases ht
      rw [h2]
      simp only [spawn_log, note_log, List.append_assoc, List.append_cancel_left_eq] at hl
      subst hl
      exact .inr (.inr ⟨s.now, s.tids, [], [], rfl⟩)
    · refine .inl ?_
      simp only [St.spawn, St.note]
      rw [upd_ne _ _ (by omega), upd_ne _ _ h]
      exact ht
  | @crash r' h1 =>
    by_cases h : r = r'
    · subst h
      simp only [note_log, List.append_cancel_left_eq] at hl
      subst hl
      exact .inr (.inl (.inl ⟨_, List.mem_singleton.2 rfl, rfl⟩))
    · refine .inl ?_
      simp only [St.note, survivors, ht]
      rw [if_neg h]
  | @die tid t h1 =>
    by_cases h : i = tid
    · subst h
      rw [h1] at ht
      cases ht
      simp only [note_log, List.append_cancel_left_eq] at hl
      subst hl
      exact .inr (.inl (.inr ⟨_, List.mem_singleton.2 rfl, rfl⟩))
    · exact .inl (by simp only [St.note]; rw [upd_ne _ _ h]; exact ht)
  | _ => exact .inl ht

theorem Reach.reacted {P : St → Act → Prop} {s : St} (hr : Reach P s) {pre post : List Entry} {t r i : Nat} {o : Op} {a : Ans}
    (hl : s.log = pre ++ ⟨t, .answer r i o a⟩ :: post) :
    s.task i = some ⟨r, o, some a⟩ ∨ CutOff post r i o ∨ Reacted r i post (next o a) := by
  induction hr generalizing pre post t with
  | init => simp [Queue.init] at hl
  | @step s s' act hr hp hs ih =>
    have hst := step_cases hs
    obtain ⟨new, hnew⟩ := hst.log
    rw [hnew] at hl
    rcases split_log hl with ⟨post0, h1, rfl⟩ | ⟨x, rfl, h1⟩
    · rcases ih h1 with h | h | h
      · rcases hst.pending hr.basic hnew h with h | h | h
        · exact .inl h
        · exact .inr (.inl (h.imp (fun ⟨e, h2, h3⟩ => ⟨e, List.mem_append_right _ h2, h3⟩) (fun ⟨e, h2, h3⟩ => ⟨e, List.mem_append_right _ h2, h3⟩)))
        · refine .inr (.inr ?_)
          cases hn : next o a with
          | finish => rw [hn] at h; obtain ⟨e, h2, h3⟩ := h; exact ⟨e, List.mem_append_right _ h2, h3⟩
          | goOn o => rw [hn] at h; obtain ⟨e, h2, h3⟩ := h; exact ⟨e, List.mem_append_right _ h2, h3⟩
          | spawn o =>
            rw [hn] at h
            obtain ⟨t', j, mid, post', rfl⟩ := h
            exact ⟨t', j, post0 ++ mid, post', by simp⟩
      · exact .inr (.inl h.append)
      · exact .inr (.inr h.append)
    · have key : ∀ (l : List Entry) (e : Entry), l ++ [e] = x ++ ⟨t, .answer r i o a⟩ :: post → (∀ y ∈ l, ∀ r i o a, y.ev ≠ .answer r i o a) →
          e.ev = .answer r i o a := by
        intro l e he hne
        rcases split_log he with ⟨p0, h2, h3⟩ | ⟨y, h2, h3⟩
        · exact absurd rfl (hne ⟨t, .answer r i o a⟩ (by rw [h2]; simp) r i o a)
        · cases y with
          | nil => simp at h3; rw [h3.1]
          | cons z zs => simp at h3
      cases hst with
      | tick =>
        have : new = [] := by simpa using hnew
        subst this
        simp at h1
      | list =>
        simp only [spawn_log, note_log, List.append_assoc, List.append_cancel_left_eq] at hnew
        subst hnew
        have := key _ _ h1 (by simp)
        simp at this
      | find =>
        simp only [spawn_log, note_log, List.append_assoc, List.append_cancel_left_eq] at hnew
        subst hnew
        have := key _ _ h1 (by simp)
        simp at this
      | spawn =>
        simp only [spawn_log, note_log, List.append_assoc, List.append_cancel_left_eq] at hnew
        subst hnew
        have := key _ _ h1 (by simp)
        simp at this
      | answer h2 he =>
        obtain ⟨e1, e2, e3, e4, e5⟩ := he.same
        rw [note_log] at hnew
        simp only [e3, List.append_cancel_left_eq] at hnew
        subst hnew
        have := key [] _ h1 (by simp)
        simp only [Ev.answer.injEq] at this
        obtain ⟨rfl, rfl, rfl, rfl⟩ := this
        exact .inl (by simp [St.note])
      | _ =>
        simp only [note_log, List.append_cancel_left_eq] at hnew
        subst hnew
        have := key [] _ h1 (by simp)
        simp at this

/-! ### One attempt at a time -/

/-- Whoever works with a claim has the mail, alone. -/
structure Alone (s : St) : Prop where
  mine : ∀ i t c, s.task i = some t → WorksOn t c → s.store c.mail = .inflight c.gen
  one : ∀ i t j u c, s.task i = some t → s.task j = some u → WorksOn t c → WorksOn u c → i = j

/-- How a task comes to work with a claim. -/
inductive Working (s : St) : Act → St → Nat → Task → Claim → Prop
  | still {act s' i t u c} : s.task i = some u → WorksOn u c → Working s act s' i t c
  | took {i r m eff s'} : s.task i = some ⟨r, .sendStart m, none⟩ → s.store m = .queued →
      s'.store = upd s.store m (.inflight s.gens) →
      Working s (.answer i (.inflight ⟨m, s.gens⟩) eff) s' i ⟨r, .sendStart m, some (.inflight ⟨m, s.gens⟩)⟩ ⟨m, s.gens⟩

theorem Step.working {s s' : St} {act : Act} (h : Step s act s') {i : Nat} {t : Task} {c : Claim}
    (ht : s'.task i = some t) (hw : WorksOn t c) : Working s act s' i t c := by
  cases h.became ht with
  | same h => exact .still h hw
  | listed => cases hw
  | found => cases hw
  | answered h1 h2 h3 h4 h5 =>
    cases hw with
    | started =>
      cases h3 with
      | take h6 h7 =>
        simp only [Ans.inflight.injEq, reduceCtorEq, or_false] at h7
        subst h7
        exact .took h2 h6 h4
    | fetching h => exact .still h2 (.fetching (by simp))
    | sending => exact .still h2 .sending
  | goOn h1 h2 h3 =>
    cases h3 with
    | started => cases hw; exact .still h2 .started
    | fetched => cases hw; exact .still h2 (.fetching (by simp))
    | accepted => cases hw; exact .still h2 .sending
    | refused => cases hw; exact .still h2 .sending
    | waited => cases hw
    | recovered => cases hw
  | spawned h1 h2 h3 =>
    cases h3; cases hw

theorem Reach.alone {s : St} (hr : Reach Gentle s) : Alone s := by
  induction hr with
  | init => constructor <;> (intros; simp [Queue.init] at *)
  | @step s s' act hr hp hs ih =>
    have hst := step_cases hs
    have hb := hr.basic
    have hold : ∀ i u c, s.task i = some u → WorksOn u c → c.gen < s.gens := by
      intro i u c h1 h2
      obtain ⟨τ, h3⟩ := (hb.task i u h1).work c h2.mem
      exact (hb.gen c τ h3).1
    constructor
    · intro i t c ht hw
      cases hst.working ht hw with
      | took h1 h2 h3 => rw [h3]; simp
      | @still _ _ _ _ u _ h1 h2 =>
        have hm := ih.mine i u c h1 h2
        cases hst with
        | @enqueue m h3 =>
          simp only [St.note]
          rw [upd_ne _ _ (by intro h; rw [h, h3] at hm; cases hm)]
          exact hm
        | @answer j r o a eff s1 h3 he =>
          show s1.store c.mail = _
          cases he with
          | take h4 h5 =>
            simp only [St.take]
            rw [upd_ne _ _ (by intro h; rw [h, h4] at hm; cases hm)]
            exact hm
          | @done c' _ _ h4 h5 =>
            by_cases h : c.mail = c'.mail
            · have hc : c = c' := by
                rw [h, h4] at hm
                cases c; cases c'; simp_all
              subst hc
              have := ih.one _ _ _ _ c h1 h3 h2 .finishing
              subst this
              simp only [St.note, upd_same, Option.some.injEq] at ht
              subst ht
              cases hw
            · simp only; rw [upd_ne _ _ h]; exact hm
          | @cancelled c' _ _ h4 h5 =>
            by_cases h : c.mail = c'.mail
            · have hc : c = c' := by
                rw [h, h4] at hm
                cases c; cases c'; simp_all
              subst hc
              have := ih.one _ _ _ _ c h1 h3 h2 .cancelling
              subst this
              simp only [St.note, upd_same, Option.some.injEq] at ht
              subst ht
              cases hw
            · simp only; rw [upd_ne _ _ h]; exact hm
          | @recovered c' _ _ h4 h5 =>
            by_cases h : c.mail = c'.mail
            · have hc : c = c' := by
                rw [h, h4] at hm
                cases c; cases c'; simp_all
              subst hc
              refine absurd h2 (hp j a eff r c rfl ?_ h3 i u h1)
              rcases h5 with rfl | h5
              · simp
              · exact .inr h5.2
            · simp only; rw [upd_ne _ _ h]; exact hm
          | _ => exact hm
        | _ => exact hm
    · intro i t j u c ht hu hwt hwu
      cases hst.working ht hwt with
      | took h1 h2 h3 =>
        generalize hu' : u = u', hj : j = j' at *
        cases hst.working hu hwu with
        | took h4 _ _ => rfl
        | still h4 h5 => exact absurd (hold _ _ _ h4 h5) (by simp)
      | still h1 h2 =>
        cases hst.working hu hwu with
        | took h4 _ _ => exact absurd (hold _ _ _ h1 h2) (by simp)
        | still h4 h5 => exact ih.one _ _ _ _ c h1 h4 h2 h5

/-! ### Times and phases -/

/-- Runs against the record. -/
structure Timed (s : St) : Prop where
  started : ∀ r, (s.runs r).phase ≠ .notStarted → HasAt s.log (s.runs r).startup (.started r)
  startup : ∀ r t, HasAt s.log t (.started r) → (s.runs r).phase ≠ .notStarted ∧ t = (s.runs r).startup
  finding : ∀ r, (s.runs r).phase = .finding → Has s.log (.listEnded r) ∧ ¬ Has s.log (.listFailed r)
  listing : ∀ r, (s.runs r).phase = .listing ∨ (s.runs r).phase = .notStarted →
    ¬ Has s.log (.listFailed r) ∧ ¬ Has s.log (.listEnded r) ∧ ∀ c, ¬ Has s.log (.found r c)
  past : ∀ e ∈ s.log, e.time ≤ s.now

theorem HasAt.append {l new : List Entry} {t : Nat} {ev : Ev} (h : HasAt l t ev) : HasAt (l ++ new) t ev :=
  List.mem_append_left _ h

theorem HasAt.before {l : List Entry} {e : Entry} {t : Nat} {ev : Ev} (h : HasAt (l ++ [e]) t ev) (hne : e.ev ≠ ev) : HasAt l t ev := by
  unfold HasAt at h
  simp only [List.mem_append, List.mem_singleton] at h
  rcases h with h | h
  · exact h
  · subst h; exact absurd rfl hne

theorem Timed.quiet {s s' : St} {ev : Ev} (h : Timed s) (hs : s'.runs = s.runs) (hn : s'.now = s.now)
    (hl : s'.log = s.log ++ [⟨s.now, ev⟩])
    (h1 : ∀ r, ev ≠ .started r ∧ ev ≠ .listFailed r ∧ ev ≠ .listEnded r)
    (h2 : ∀ r c, ev = .found r c → (s.runs r).phase = .finding) : Timed s' where
  started r hr := by rw [hs] at hr ⊢; rw [hl]; exact (h.started r hr).append
  startup r t ht := by rw [hl] at ht; rw [hs]; exact h.startup r t (ht.before (h1 r).1)
  finding r hr := by
    rw [hs] at hr
    rw [hl]
    obtain ⟨h3, h4⟩ := h.finding r hr
    exact ⟨h3.append, fun h5 => h4 (h5.before (h1 r).2.1)⟩
  listing r hr := by
    rw [hs] at hr
    rw [hl]
    obtain ⟨h3, h4, h5⟩ := h.listing r hr
    refine ⟨fun h6 => h3 (h6.before (h1 r).2.1), fun h6 => h4 (h6.before (h1 r).2.2), fun c h6 => ?_⟩
    by_cases he : ev = .found r c
    · have := h2 r c he
      rw [this] at hr
      simp at hr
    · exact h5 c (h6.before he)
  past e he := by
    rw [hl] at he
    rw [hn]
    simp only [List.mem_append, List.mem_singleton] at he
    rcases he with he | rfl
    · exact h.past e he
    · exact Nat.le_refl _

theorem Timed.phase {s s' : St} {r : Nat} {p : Phase} {ev : Ev} (h : Timed s)
    (hs : s'.runs = upd s.runs r { s.runs r with phase := p }) (hn : s'.now = s.now)
    (hl : s'.log = s.log ++ [⟨s.now, ev⟩]) (h0 : (s.runs r).phase ≠ .notStarted) (h0' : p ≠ .notStarted)
    (h1 : ∀ r, ev ≠ .started r) (h2 : ∀ r c, ev ≠ .found r c)
    (h3 : p = .finding → (s.runs r).phase = .listing ∧ ev = .listEnded r) (h4 : p ≠ .listing)
    (h5 : ∀ r', ev = .listFailed r' → r' = r ∧ p ≠ .finding) (h6 : ∀ r', ev = .listEnded r' → r' = r) : Timed s' where
  started r' hr := by
    rw [hs] at hr ⊢
    rw [hl]
    by_cases he : r' = r
    · subst he; simp only [upd_same]; exact (h.started r' h0).append
    · rw [upd_ne _ _ he] at hr ⊢; exact (h.started r' hr).append
  startup r' t ht := by
    rw [hl] at ht
    rw [hs]
    have := h.startup r' t (ht.before (h1 r'))
    by_cases he : r' = r
    · subst he; simp only [upd_same]; exact ⟨h0', this.2⟩
    · rw [upd_ne _ _ he]; exact this
  finding r' hr := by
    rw [hs] at hr
    rw [hl]
    by_cases he : r' = r
    · subst he
      simp only [upd_same] at hr
      obtain ⟨h7, h8⟩ := h3 hr
      subst h8
      exact ⟨Has.last, fun h9 => (h.listing r' (.inl h7)).1 (h9.before (by simp))⟩
    · rw [upd_ne _ _ he] at hr
      obtain ⟨h7, h8⟩ := h.finding r' hr
      exact ⟨h7.append, fun h9 => h8 (h9.before (fun h10 => he (h5 r' h10).1))⟩
  listing r' hr := by
    rw [hs] at hr
    rw [hl]
    by_cases he : r' = r
    · subst he
      simp only [upd_same] at hr
      rcases hr with hr | hr
      · exact absurd hr h4
      · exact absurd hr h0'
    · rw [upd_ne _ _ he] at hr
      obtain ⟨h7, h8, h9⟩ := h.listing r' hr
      exact ⟨fun h10 => h7 (h10.before (fun h11 => he (h5 r' h11).1)), fun h10 => h8 (h10.before (fun h11 => he (h6 r' h11))),
        fun c h10 => h9 c (h10.before (h2 r' c))⟩
  past e he := by
    rw [hl] at he
    rw [hn]
    simp only [List.mem_append, List.mem_singleton] at he
    rcases he with he | rfl
    · exact h.past e he
    · exact Nat.le_refl _

theorem Reach.timed {P : St → Act → Prop} {s : St} (hr : Reach P s) : Timed s := by
  induction hr with
  | init => constructor <;> simp [Queue.init, Has, HasAt]
  | @step s s' act hr _ hs ih =>
    cases step_cases hs with
    | tick => exact ⟨ih.started, ih.startup, ih.finding, ih.listing, fun e he => Nat.le_trans (ih.past e he) (Nat.le_add_right _ _)⟩
    | enqueue h1 => exact ih.quiet rfl rfl rfl (by simp) (by simp)
    | @start r h1 =>
      refine ⟨?_, ?_, ?_, ?_, ?_⟩
      · intro r' hr'
        by_cases he : r' = r
        · subst he; simp [St.note, HasAt]
        · simp only [St.note, upd_ne _ _ he] at hr' ⊢; exact (ih.started r' hr').append
      · intro r' t ht
        by_cases he : r' = r
        · subst he
          simp only [St.note, upd_same]
          refine ⟨by simp, ?_⟩
          simp only [HasAt, note_log, List.mem_append, List.mem_singleton] at ht
          rcases ht with ht | ht
          · exact absurd h1 (ih.startup r' t ht).1
          · simpa using ht
        · simp only [St.note, upd_ne _ _ he] at ht ⊢; exact ih.startup r' t (HasAt.before ht (by simp; exact fun h => he h.symm))
      · intro r' hr'
        by_cases he : r' = r
        · subst he; simp [St.note] at hr'
        · simp only [St.note, upd_ne _ _ he] at hr' ⊢
          obtain ⟨h2, h3⟩ := ih.finding r' hr'
          exact ⟨h2.append, fun h => h3 (h.before (by simp))⟩
      · intro r' hr'
        have h2 : (s.runs r').phase = .listing ∨ (s.runs r').phase = .notStarted := by
          by_cases he : r' = r
          · subst he; exact .inr h1
          · simpa only [St.note, upd_ne _ _ he] using hr'
        obtain ⟨h3, h4, h5⟩ := ih.listing r' h2
        exact ⟨fun h => h3 (h.before (by simp)), fun h => h4 (h.before (by simp)), fun c h => h5 c (h.before (by simp))⟩
      · intro e he
        simp only [note_log, List.mem_append, List.mem_singleton] at he
        rcases he with he | rfl
        · exact ih.past e he
        · exact Nat.le_refl _
    | list h1 h2 => exact (ih.quiet (s' := s.note _) rfl rfl rfl (by simp) (by simp)).quiet rfl rfl rfl (by simp) (by simp)
    | find h1 h2 =>
      exact (ih.quiet (s' := s.note _) rfl rfl rfl (by simp) (by simpa using h1)).quiet rfl rfl rfl (by simp) (by simp)
    | spawn h1 h2 => exact (ih.quiet (s' := s.note _) rfl rfl rfl (by simp) (by simp)).quiet rfl rfl rfl (by simp) (by simp)
    | @answer tid r o a eff s1 h1 he =>
      obtain ⟨e1, e2, e3, e4, e5⟩ := he.same
      exact ih.quiet (ev := .answer r tid o a) (by simp [St.note, e4]) (by simp [St.note, e5]) (by rw [note_log]; simp only [e3, e5]) (by simp) (by simp)
    | listEnd h1 => exact ih.phase rfl rfl rfl (by simp [h1]) (by simp) (by simp) (by simp) (by simp [h1]) (by simp) (by simp) (by simp)
    | listFail h1 => exact ih.phase rfl rfl rfl (by simp [h1]) (by simp) (by simp) (by simp) (by simp [h1]) (by simp) (by simp) (by simp)
    | findEnd h1 => exact ih.phase rfl rfl rfl (by simp [h1]) (by simp) (by simp) (by simp) (by simp [h1]) (by simp) (by simp) (by simp)
    | findFail h1 => exact ih.phase rfl rfl rfl (by simp [h1]) (by simp) (by simp) (by simp) (by simp [h1]) (by simp) (by simp) (by simp)
    | crash h1 => exact ih.phase rfl rfl rfl h1 (by simp) (by simp) (by simp) (by simp) (by simp) (by simp) (by simp)
    | _ => exact ih.quiet rfl rfl rfl (by simp) (by simp)

theorem Step.now {s s' : St} {act : Act} (h : Step s act s') : s.now ≤ s'.now := by
  cases h with
  | tick => exact Nat.le_add_right _ _
  | answer h1 he => obtain ⟨e1, e2, e3, e4, e5⟩ := he.same; exact Nat.le_of_eq e5.symm
  | _ => exact Nat.le_refl _

theorem Step.startup {s s' : St} {act : Act} (h : Step s act s') {r : Nat} (hr : (s.runs r).phase ≠ .notStarted) :
    (s'.runs r).startup = (s.runs r).startup := by
  have hu : ∀ r' p, (upd s.runs r' { s.runs r' with phase := p } r).startup = (s.runs r).startup := by
    intro r' p
    by_cases he : r = r'
    · subst he; simp
    · rw [upd_ne _ _ he]
  cases h with
  | start h1 =>
    simp only [St.note]
    rw [upd_ne _ _ (by intro h; rw [h] at hr; exact hr h1)]
  | answer h1 he => obtain ⟨e1, e2, e3, e4, e5⟩ := he.same; exact congrArg (fun f => (f r).startup) e4
  | listEnd => exact hu _ _
  | listFail => exact hu _ _
  | findEnd => exact hu _ _
  | findFail => exact hu _ _
  | crash => exact hu _ _
  | _ => rfl

/-- Recovery tasks wait until an hour after startup. -/
theorem Reach.waits {P : St → Act → Prop} {s : St} (hr : Reach P s) : ∀ i t, s.task i = some t →
    (∀ T c, t.op = .delay T c → T = (s.runs t.run).startup + recoveryDelay ∧ (t.ans = some .ok → T ≤ s.now)) ∧
    (∀ c, t.op = .cancelFound c → (s.runs t.run).startup + recoveryDelay ≤ s.now) := by
  induction hr with
  | init => intro i t h; simp [Queue.init] at h
  | @step s s' act hr _ hs ih =>
    have hst := step_cases hs
    have hn := hst.now
    intro i t ht
    cases hst.became ht with
    | same h =>
      obtain ⟨h1, h2⟩ := ih i t h
      have hsu := hst.startup (hr.basic.task _ _ h).alive.1
      rw [hsu]
      refine ⟨fun T c ho => ⟨(h1 T c ho).1, fun ha => Nat.le_trans ((h1 T c ho).2 ha) hn⟩, fun c ho => Nat.le_trans (h2 c ho) hn⟩
    | listed => simp
    | found _ h2 =>
      have hsu := hst.startup (r := _) (by rw [h2]; simp)
      simp only [Op.delay.injEq]
      rw [hsu]
      exact ⟨fun T c h => ⟨h.1.symm, by simp⟩, by simp⟩
    | answered h1 h2 h3 =>
      obtain ⟨h4, h5⟩ := ih _ _ h2
      have hsu := hst.startup (hr.basic.task _ _ h2).alive.1
      refine ⟨fun T c ho => ⟨?_, fun ha => ?_⟩, fun c ho => ?_⟩
      · exact hsu ▸ (h4 T c ho).1
      · simp only at ho
        subst ho
        simp only [Option.some.injEq] at ha
        subst ha
        cases h3 with
        | waited h => exact Nat.le_trans h hn
      · exact hsu ▸ Nat.le_trans (h5 c ho) hn
    | goOn h1 h2 h3 =>
      obtain ⟨h4, h5⟩ := ih _ _ h2
      have hsu := hst.startup (hr.basic.task _ _ h2).alive.1
      cases h3 with
      | waited =>
        refine ⟨by simp, fun c ho => ?_⟩
        obtain ⟨h6, h7⟩ := h4 _ _ rfl
        have := h7 rfl
        show (s'.runs _).startup + recoveryDelay ≤ _
        rw [hsu]
        omega
      | _ => simp
    | spawned h1 h2 h3 => cases h3; simp

/-- A recovery task was started with a claim made before. -/
theorem Step.claims {s s' : St} {act : Act} (h : Step s act s') : ∀ x ∈ s.claims, x ∈ s'.claims := by
  cases h with
  | answer h1 he => cases he <;> simp [St.note, St.take] <;> (intros; simp [*])
  | _ => exact fun _ h => h

theorem Reach.recoverable {A F : Nat} (hAF : A + F ≤ recoveryDelay) {s : St} (hr : Reach (Timely A F) s) :
    ∀ i t c, s.task i = some t →
      ((∃ T, t.op = .delay T c) ∨ t.op = .cancelFound c) → ∃ τ, (c, τ) ∈ s.claims ∧ τ + A ≤ (s.runs t.run).startup + recoveryDelay := by
  induction hr with
  | init => intro i t c h; simp [Queue.init] at h
  | @step s s' act hr hp hs ih =>
    have hst := step_cases hs
    have hc := hst.claims
    intro i t c ht ho
    cases hst.became ht with
    | same h =>
      obtain ⟨τ, h1, h2⟩ := ih i t c h ho
      rw [hst.startup (hr.basic.task _ _ h).alive.1]
      exact ⟨τ, hc _ h1, h2⟩
    | listed => simp at ho
    | @found r c' τ _ h1 h2 h3 =>
      simp only [Op.delay.injEq, exists_and_left, reduceCtorEq, or_false] at ho
      obtain ⟨T, _, rfl⟩ := ho
      refine ⟨τ, hc _ h3, ?_⟩
      show τ + A ≤ (s'.runs r).startup + recoveryDelay
      rw [hst.startup (by rw [h2]; simp)]
      have h4 := hp.2 r c' rfl
      have h5 := (hr.basic.gen _ _ h3).2
      omega
    | answered h1 h2 h3 =>
      obtain ⟨τ, h1, h2⟩ := ih _ _ c h2 ho
      have := hst.startup (hr.basic.task _ _ (by assumption)).alive.1
      exact ⟨τ, hc _ h1, this ▸ h2⟩
    | goOn h1 h2 h3 =>
      have hsu := hst.startup (hr.basic.task _ _ h2).alive.1
      cases h3 with
      | waited =>
        simp only [reduceCtorEq, exists_false, Op.cancelFound.injEq, false_or] at ho
        subst ho
        obtain ⟨τ, h3, h4⟩ := ih _ _ _ h2 (.inl ⟨_, rfl⟩)
        exact ⟨τ, hc _ h3, hsu ▸ h4⟩
      | _ => simp at ho
    | spawned h1 h2 h3 => cases h3; simp at ho

theorem Reach.gentle {A F : Nat} (hAF : A + F ≤ recoveryDelay) {s : St} (hr : Reach (Timely A F) s) : Reach Gentle s := by
  induction hr with
  | init => exact .init
  | @step s s' act hr hp hs ih =>
    refine .step ih ?_ hs
    intro tid a eff r c ha hne ht i t hi hw
    obtain ⟨τ, h1, h2⟩ := hr.recoverable hAF _ _ c ht (.inr rfl)
    have h3 := (hr.waits _ _ ht).2 c rfl
    have h4 := hp.1 i t c τ hi hw h1
    simp only at h2 h3
    omega

theorem Step.listed {s s' : St} {act : Act} (h : Step s act s') {new x post : List Entry} {t r : Nat} {m : MailId}
    (hl : s'.log = s.log ++ new) (hn : new = x ++ ⟨t, .listed r m⟩ :: post) :
    s'.task s.tids = some ⟨r, .sendStart m, none⟩ ∧ post = [⟨t, .call r s.tids (.sendStart m)⟩] := by
  have one : ∀ e : Entry, [e] = x ++ ⟨t, .listed r m⟩ :: post → e.ev = .listed r m := by
    intro e he
    cases x with
    | nil => simp at he; rw [he.1]
    | cons z zs => simp at he
  have two : ∀ e f : Entry, [e, f] = x ++ ⟨t, .listed r m⟩ :: post → f.ev ≠ .listed r m → e = ⟨t, .listed r m⟩ ∧ post = [f] := by
    intro e f he hf
    cases x with
    | nil => simp at he; exact ⟨he.1, he.2.symm⟩
    | cons z zs =>
      cases zs with
      | nil => simp at he; rw [he.2.1] at hf; simp at hf
      | cons _ _ => simp at he
  cases h with
  | tick =>
    have : new = [] := by simpa using hl
    subst this
    simp at hn
  | list =>
    simp only [spawn_log, note_log, List.append_assoc, List.append_cancel_left_eq] at hl
    subst hl
    obtain ⟨h1, h2⟩ := two _ _ hn (by simp)
    simp only [Entry.mk.injEq, Ev.listed.injEq] at h1
    obtain ⟨rfl, rfl, rfl⟩ := h1
    exact ⟨by simp [St.spawn, St.note], h2⟩
  | find =>
    simp only [spawn_log, note_log, List.append_assoc, List.append_cancel_left_eq] at hl
    subst hl
    obtain ⟨h1, h2⟩ := two _ _ hn (by simp)
    simp at h1
  | spawn =>
    simp only [spawn_log, note_log, List.append_assoc, List.append_cancel_left_eq] at hl
    subst hl
    obtain ⟨h1, h2⟩ := two _ _ hn (by simp)
    simp at h1
  | answer h2 he =>
    obtain ⟨e1, e2, e3, e4, e5⟩ := he.same
    rw [note_log] at hl
    simp only [e3, List.append_cancel_left_eq] at hl
    subst hl
    have := one _ hn
    simp at this
  | _ =>
    simp only [note_log, List.append_cancel_left_eq] at hl
    subst hl
    have := one _ hn
    simp at this

/-- An attempt the transport accepted is about to call `send_done`, has called it, or has crashed. -/
theorem Reach.accepted {P : St → Act → Prop} {s : St} (h : Reach P s) {r i : Nat} {c : Claim} {b : MailId}
    (ha : Has s.log (.answer r i (.transportSend c b) .ok)) :
    s.task i = some ⟨r, .transportSend c b, some .ok⟩ ∨ s.task i = some ⟨r, .sendDone c, none⟩ ∨
    (CutOff s.log r i (.transportSend c b) ∨ CutOff s.log r i (.sendDone c)) ∨
    Has s.log (.answer r i (.sendDone c) .ok) ∨ Has s.log (.answer r i (.sendDone c) .err) := by
  induction h with
  | init => simp [Queue.init, Has] at ha
  | @step s s' act hr hp hs ih =>
    have hst := step_cases hs
    obtain ⟨new, hnew⟩ := hst.log
    have hnew' : ∀ ev, Has new ev → Has s'.log ev := by
      rintro ev ⟨e, h1, h2⟩
      exact ⟨e, by rw [hnew]; simp [h1], h2⟩
    by_cases hold : Has s.log (.answer r i (.transportSend c b) .ok)
    · rcases ih hold with h1 | h1 | h1 | h1 | h1
      · rcases hst.pending hr.basic hnew h1 with h2 | h2 | h2
        · exact .inl h2
        · exact .inr (.inr (.inl (.inl (h2.imp (hnew' _) (hnew' _)))))
        · refine .inr (.inl ?_)
          have h3 : Has new (.call r i (.sendDone c)) := h2
          have h4 := (hr.basic.task _ _ h1).tid
          obtain ⟨e, h5, h6⟩ := h3
          cases hst with
          | tick =>
            have : new = [] := by simpa using hnew
            subst this
            simp at h5
          | answer h7 he =>
            obtain ⟨e1, e2, e3, e4, e5⟩ := he.same
            rw [note_log] at hnew
            simp only [e3, List.append_cancel_left_eq] at hnew
            subst hnew
            simp only [List.mem_singleton] at h5
            subst h5
            simp at h6
          | goOn h7 h8 =>
            simp only [note_log, List.append_cancel_left_eq] at hnew
            subst hnew
            simp only [List.mem_singleton] at h5
            subst h5
            simp only [Ev.call.injEq] at h6
            obtain ⟨rfl, rfl, rfl⟩ := h6
            simp [St.note]
          | list =>
            simp only [spawn_log, note_log, List.append_assoc, List.append_cancel_left_eq] at hnew
            subst hnew
            simp only [List.cons_append, List.nil_append, List.mem_cons, List.not_mem_nil, or_false] at h5
            rcases h5 with rfl | rfl <;> simp at h6
          | find =>
            simp only [spawn_log, note_log, List.append_assoc, List.append_cancel_left_eq] at hnew
            subst hnew
            simp only [List.cons_append, List.nil_append, List.mem_cons, List.not_mem_nil, or_false] at h5
            rcases h5 with rfl | rfl <;> simp at h6
          | spawn h7 h8 =>
            simp only [spawn_log, note_log, List.append_assoc, List.append_cancel_left_eq] at hnew
            subst hnew
            simp only [List.cons_append, List.nil_append, List.mem_cons, List.not_mem_nil, or_false] at h5
            rcases h5 with rfl | rfl
            · simp at h6
            · simp only [Ev.call.injEq] at h6
              obtain ⟨_, _, rfl⟩ := h6
              cases next_cases h8
          | _ =>
            simp only [note_log, List.append_cancel_left_eq] at hnew
            subst hnew
            simp only [List.mem_singleton] at h5
            subst h5
            simp at h6
      · have hlt := (hr.basic.task _ _ h1).tid
        cases hst with
        | tick => exact .inr (.inl h1)
        | list => exact .inr (.inl (by simp only [St.spawn, St.note]; rw [upd_ne _ _ (by omega)]; exact h1))
        | find => exact .inr (.inl (by simp only [St.spawn, St.note]; rw [upd_ne _ _ (by omega)]; exact h1))
        | @answer j r' o a eff s1 h2 he =>
          obtain ⟨e1, e2, e3, e4, e5⟩ := he.same
          by_cases hij : i = j
          · subst hij
            rw [h2] at h1
            cases h1
            refine .inr (.inr (.inr ?_))
            cases he with
            | done h3 h4 =>
              rcases h4 with rfl | rfl
              · exact .inl Has.last
              · exact .inr Has.last
            | failed => exact .inr Has.last
          · refine .inr (.inl ?_)
            simp only [St.note]
            rw [upd_ne _ _ hij, e1]
            exact h1
        | @finish j r' o a h2 h3 =>
          have hij : i ≠ j := by rintro rfl; rw [h2] at h1; cases h1
          exact .inr (.inl (by simp only [St.note]; rw [upd_ne _ _ hij]; exact h1))
        | @goOn j r' o a o' h2 h3 =>
          have hij : i ≠ j := by rintro rfl; rw [h2] at h1; cases h1
          exact .inr (.inl (by simp only [St.note]; rw [upd_ne _ _ hij]; exact h1))
        | @spawn j r' o a o' h2 h3 =>
          have hij : i ≠ j := by rintro rfl; rw [h2] at h1; cases h1
          refine .inr (.inl ?_)
          simp only [St.spawn, St.note]
          rw [upd_ne _ _ (by omega), upd_ne _ _ hij]
          exact h1
        | @crash r' h2 =>
          by_cases hrr : r = r'
          · subst hrr; exact .inr (.inr (.inl (.inl (.inl Has.last))))
          · refine .inr (.inl ?_)
            simp only [St.note, survivors, h1]
            rw [if_neg hrr]
        | @die j t h2 =>
          by_cases hij : i = j
          · subst hij
            rw [h2] at h1
            cases h1
            exact .inr (.inr (.inl (.inr (.inr Has.last))))
          · exact .inr (.inl (by simp only [St.note]; rw [upd_ne _ _ hij]; exact h1))
        | _ => exact .inr (.inl h1)
      · exact .inr (.inr (.inl (hnew ▸ h1.imp CutOff.append CutOff.append)))
      · exact .inr (.inr (.inr (.inl (hnew ▸ h1.append))))
      · exact .inr (.inr (.inr (.inr (hnew ▸ h1.append))))
    · obtain ⟨⟨t, ev⟩, h1, h2⟩ := ha
      simp only at h2
      subst h2
      obtain ⟨pre, post, hl⟩ := List.append_of_mem h1
      rw [hnew] at hl
      rcases split_log hl with ⟨post0, h3, rfl⟩ | ⟨x, rfl, h3⟩
      · exact absurd (Has.mem (t := t) (by rw [h3]; simp)) hold
      · have := (Reach.step hr hp hs).reacted (hnew.trans hl)
        rcases this with h4 | h4 | h4
        · exact .inl h4
        · have f : ∀ ev, Has post ev → Has s'.log ev := by
            rintro ev ⟨e, h5, h6⟩
            exact ⟨e, by rw [hnew, hl]; simp [h5], h6⟩
          exact .inr (.inr (.inl (.inl (h4.imp (f _) (f _)))))
        · exfalso
          have h5 : Has post (.call r i (.sendDone c)) := h4
          -- an action that records an answer records nothing after it
          cases hst with
          | answer h7 he =>
            obtain ⟨e1, e2, e3, e4, e5⟩ := he.same
            rw [note_log] at hnew
            simp only [e3, List.append_cancel_left_eq] at hnew
            subst hnew
            cases x with
            | nil => simp only [List.nil_append, List.cons.injEq] at h3; rw [← h3.2] at h5; obtain ⟨e, h8, _⟩ := h5; simp at h8
            | cons z zs => simp at h3
          | tick =>
            have : new = [] := by simpa using hnew
            subst this
            simp at h3
          | list =>
            simp only [spawn_log, note_log, List.append_assoc, List.append_cancel_left_eq] at hnew
            have h9 : (⟨t, .answer r i (.transportSend c b) .ok⟩ : Entry) ∈ new := by rw [h3]; simp
            rw [← hnew] at h9
            simp at h9
          | find =>
            simp only [spawn_log, note_log, List.append_assoc, List.append_cancel_left_eq] at hnew
            have h9 : (⟨t, .answer r i (.transportSend c b) .ok⟩ : Entry) ∈ new := by rw [h3]; simp
            rw [← hnew] at h9
            simp at h9
          | spawn =>
            simp only [spawn_log, note_log, List.append_assoc, List.append_cancel_left_eq] at hnew
            have h9 : (⟨t, .answer r i (.transportSend c b) .ok⟩ : Entry) ∈ new := by rw [h3]; simp
            rw [← hnew] at h9
            simp at h9
          | _ =>
            simp only [note_log, List.append_cancel_left_eq] at hnew
            have h9 : (⟨t, .answer r i (.transportSend c b) .ok⟩ : Entry) ∈ new := by rw [h3]; simp
            rw [← hnew] at h9
            simp at h9

/-- The transport answers for the message of the mail that was claimed. -/
theorem Reach.sentBody {P : St → Act → Prop} {s : St} (h : Reach P s) :
    Ordered (fun _ e => ∀ r i c b a, e.ev = .answer r i (.transportSend c b) a → b = c.mail) s.log := by
  induction h with
  | init => exact Ordered.nil
  | @step s s' act hr hp hs ih =>
    refine (step_cases hs).answers ih (fun pre e he r i c b a h => absurd h (he r i _ a)) ?_
    intro r i o a h5 h6 h7 r' i' c b a' he
    cases he
    exact (hr.basic.task _ _ h6).body c b rfl

theorem Step.found {s s' : St} {act : Act} (h : Step s act s') {new x post : List Entry} {t r : Nat} {c : Claim}
    (hl : s'.log = s.log ++ new) (hn : new = x ++ ⟨t, .found r c⟩ :: post) :
    (s.runs r).phase = .finding ∧ s'.task s.tids = some ⟨r, .delay ((s.runs r).startup + recoveryDelay) c, none⟩ ∧ post = [⟨t, .call r s.tids (.delay ((s.runs r).startup + recoveryDelay) c)⟩] := by
  have one : ∀ e : Entry, [e] = x ++ ⟨t, .found r c⟩ :: post → e.ev = .found r c := by
    intro e he
    cases x with
    | nil => simp at he; rw [he.1]
    | cons z zs => simp at he
  have two : ∀ e f : Entry, [e, f] = x ++ ⟨t, .found r c⟩ :: post → f.ev ≠ .found r c → e = ⟨t, .found r c⟩ ∧ post = [f] := by
    intro e f he hf
    cases x with
    | nil => simp at he; exact ⟨he.1, he.2.symm⟩
    | cons z zs =>
      cases zs with
      | nil => simp at he; rw [he.2.1] at hf; simp at hf
      | cons _ _ => simp at he
  cases h with
  | tick =>
    have : new = [] := by simpa using hl
    subst this
    simp at hn
  | find hph =>
    simp only [spawn_log, note_log, List.append_assoc, List.append_cancel_left_eq] at hl
    subst hl
    obtain ⟨h1, h2⟩ := two _ _ hn (by simp)
    simp only [Entry.mk.injEq, Ev.found.injEq] at h1
    obtain ⟨rfl, rfl, rfl⟩ := h1
    exact ⟨hph, by simp [St.spawn, St.note], h2⟩
  | list =>
    simp only [spawn_log, note_log, List.append_assoc, List.append_cancel_left_eq] at hl
    subst hl
    obtain ⟨h1, h2⟩ := two _ _ hn (by simp)
    simp at h1
  | spawn =>
    simp only [spawn_log, note_log, List.append_assoc, List.append_cancel_left_eq] at hl
    subst hl
    obtain ⟨h1, h2⟩ := two _ _ hn (by simp)
    simp at h1
  | answer h2 he =>
    obtain ⟨e1, e2, e3, e4, e5⟩ := he.same
    rw [note_log] at hl
    simp only [e3, List.append_cancel_left_eq] at hl
    subst hl
    have := one _ hn
    simp at this
  | _ =>
    simp only [note_log, List.append_cancel_left_eq] at hl
    subst hl
    have := one _ hn
    simp at this

/-- Without failures a task ends only when its mail is gone. -/
theorem Reach.noFailure {s : St} (h : Reach NoFailure s) : ∀ i t a, s.task i = some t → t.ans = some a →
    next t.op a = .finish → s.store t.op.mail = .gone := by
  intro i t a ht ha hn
  have h1 : ∀ i t a, s.task i = some t → t.ans = some a → next t.op a = .finish → ∃ c, t.op = .sendDone c ∧ a = .ok := by
    clear ht ha hn i t a
    induction h with
    | init => intro i t a h; simp [Queue.init] at h
    | @step s s' act hr hp hs ih =>
      intro i t a ht ha hn
      cases (step_cases hs).became ht with
      | same h => exact ih i t a h ha hn
      | listed => simp at ha
      | found => simp at ha
      | answered h1 h2 h3 =>
        simp only [Option.some.injEq] at ha
        subst ha
        cases h3 with
        | take h4 h5 =>
          rcases h5 with rfl | rfl
          · simp [next] at hn
          · obtain ⟨c, b, h⟩ := hp.2.2 _ _ _ _ rfl h2; cases h
        | fetched => simp [next] at hn
        | sent h5 => rcases h5 with rfl | rfl <;> simp [next] at hn
        | done h4 h5 =>
          rcases h5 with rfl | rfl
          · exact ⟨_, rfl, rfl⟩
          · obtain ⟨c, b, h⟩ := hp.2.2 _ _ _ _ rfl h2; cases h
        | cancelled h4 h5 =>
          rcases h5 with rfl | rfl
          · simp [next] at hn
          · obtain ⟨c, b, h⟩ := hp.2.2 _ _ _ _ rfl h2; cases h
        | recovered h4 h5 =>
          rcases h5 with rfl | ⟨rfl, _⟩
          · simp [next] at hn
          · obtain ⟨c, b, h⟩ := hp.2.2 _ _ _ _ rfl h2; cases h
        | waited => simp [next] at hn
        | failed h5 => obtain ⟨c, b, h⟩ := hp.2.2 _ _ _ _ rfl h2; exact absurd h (h5 c b)
      | goOn => simp at ha
      | spawned => simp at ha
  obtain ⟨c, h2, rfl⟩ := h1 i t a ht ha hn
  have h3 := (h.basic.task i t ht).answered _ ha
  rw [h2] at h3 ⊢
  exact h.kept.done _ _ _ h3

/-- Where the mail of a task goes when the task goes on. -/
theorem Reach.follows {P : St → Act → Prop} {s : St} (h : Reach P s) {i r : Nat} {o o' : Op} {a : Ans}
    (ht : s.task i = some ⟨r, o, some a⟩) (hn : next o a = .goOn o' ∨ next o a = .spawn o') : o'.mail = o.mail := by
  have hp := h.past _ _ ht
  rcases hn with hn | hn <;> cases next_cases hn
  · exact (hp.claim _ _ rfl rfl).symm
  · rfl
  · rfl
  · rfl
  · rfl
  · exact hp.back _ (.inr rfl) _ rfl
  · exact hp.back _ (.inl rfl) _ rfl

theorem Reach.cared {s : St} (h : Reach NoFailure s) {m : MailId}
    (hm : (∃ r, Has s.log (.listed r m)) ∨ (∃ r c, Has s.log (.found r c) ∧ c.mail = m)) (hg : s.store m ≠ .gone) :
    ∃ i t, s.task i = some t ∧ t.op.mail = m := by
  induction h with
  | init => simp [Queue.init, Has] at hm
  | @step s s' act hr hp hs ih =>
    have hst := step_cases hs
    have hb := hr.basic
    -- what was there stays
    have stay : (∃ i t, s.task i = some t ∧ t.op.mail = m) → ∃ i t, s'.task i = some t ∧ t.op.mail = m := by
      rintro ⟨i, t, h1, h2⟩
      have hlt := (hb.task i t h1).tid
      cases hst with
      | list => exact ⟨i, t, by simp only [St.spawn, St.note]; rw [upd_ne _ _ (by omega)]; exact h1, h2⟩
      | find => exact ⟨i, t, by simp only [St.spawn, St.note]; rw [upd_ne _ _ (by omega)]; exact h1, h2⟩
      | @answer j r o a eff s1 h3 he =>
        obtain ⟨e1, e2, e3, e4, e5⟩ := he.same
        by_cases hij : i = j
        · subst hij
          rw [h3] at h1
          cases h1
          exact ⟨i, ⟨r, o, some a⟩, by simp [St.note], h2⟩
        · exact ⟨i, t, by simp only [St.note]; rw [upd_ne _ _ hij, e1]; exact h1, h2⟩
      | @finish j r o a h3 h4 =>
        by_cases hij : i = j
        · subst hij
          rw [h3] at h1
          cases h1
          have := hr.noFailure _ _ a h3 rfl h4
          simp only at h2 this
          rw [h2] at this
          exact absurd this hg
        · exact ⟨i, t, by simp only [St.note]; rw [upd_ne _ _ hij]; exact h1, h2⟩
      | @goOn j r o a o' h3 h4 =>
        by_cases hij : i = j
        · subst hij
          rw [h3] at h1
          cases h1
          exact ⟨i, ⟨r, o', none⟩, by simp [St.note], (hr.follows h3 (.inl h4)).trans h2⟩
        · exact ⟨i, t, by simp only [St.note]; rw [upd_ne _ _ hij]; exact h1, h2⟩
      | @spawn j r o a o' h3 h4 =>
        by_cases hij : i = j
        · subst hij
          rw [h3] at h1
          cases h1
          exact ⟨s.tids, ⟨r, o', none⟩, by simp [St.note, St.spawn], (hr.follows h3 (.inr h4)).trans h2⟩
        · exact ⟨i, t, by simp only [St.spawn, St.note]; rw [upd_ne _ _ (by omega), upd_ne _ _ hij]; exact h1, h2⟩
      | @crash r h3 => exact absurd rfl (hp.1 r)
      | @die j t h3 => exact absurd rfl (hp.2.1 j)
      | _ => exact ⟨i, t, h1, h2⟩
    have hg' : s.store m ≠ .gone := by
      intro h
      apply hg
      cases hst with
      | @enqueue m' h1 => simp only [St.note]; rw [upd_ne _ _ (by intro h2; rw [← h2, h] at h1; cases h1)]; exact h
      | answer h1 he => exact (he.store m).2 h
      | _ => exact h
    by_cases hold : (∃ r, Has s.log (.listed r m)) ∨ (∃ r c, Has s.log (.found r c) ∧ c.mail = m)
    · exact stay (ih hold hg')
    · obtain ⟨new, hnew⟩ := hst.log
      have hnews : (∃ r, Has new (.listed r m)) ∨ (∃ r c, Has new (.found r c) ∧ c.mail = m) := by
        have split : ∀ ev, Has s'.log ev → Has s.log ev ∨ Has new ev := by
          rintro ev ⟨e, h1, h2⟩
          rw [hnew, List.mem_append] at h1
          exact h1.imp (fun h => ⟨e, h, h2⟩) (fun h => ⟨e, h, h2⟩)
        rcases hm with ⟨r, h⟩ | ⟨r, c, h, hc⟩
        · exact (split _ h).elim (fun h => absurd (.inl ⟨r, h⟩) hold) fun h => .inl ⟨r, h⟩
        · exact (split _ h).elim (fun h => absurd (.inr ⟨r, c, h, hc⟩) hold) fun h => .inr ⟨r, c, h, hc⟩
      rcases hnews with ⟨r, ⟨t, ev⟩, h, rfl⟩ | ⟨r, c, ⟨⟨t, ev⟩, h, rfl⟩, rfl⟩
      · obtain ⟨x, y, hxy⟩ := List.append_of_mem h
        exact ⟨s.tids, _, (hst.listed hnew hxy).1, rfl⟩
      · obtain ⟨x, y, hxy⟩ := List.append_of_mem h
        exact ⟨s.tids, _, (hst.found hnew hxy).2.1, rfl⟩


/-- When no task is there and no run is busy, the mails stay where they are. -/
theorem Continues.idle {s s' : St} (h : Continues s s') (ht : ∀ i, s.task i = none)
    (hp : ∀ r, (s.runs r).phase ≠ .listing ∧ (s.runs r).phase ≠ .finding) :
    ((∀ i, s'.task i = none) ∧ ∀ r, (s'.runs r).phase ≠ .listing ∧ (s'.runs r).phase ≠ .finding) ∧
    ∀ m, s.store m ≠ .absent → s'.store m = s.store m := by
  induction h with
  | refl => exact ⟨⟨ht, hp⟩, fun _ _ => rfl⟩
  | @step s1 s2 a _ ha hs ih =>
    obtain ⟨⟨h1, h2⟩, h3⟩ := ih
    cases step_cases hs with
    | tick => exact ⟨⟨h1, h2⟩, h3⟩
    | @enqueue m h4 =>
      refine ⟨⟨h1, h2⟩, fun m' hm => ?_⟩
      rw [← h3 m' hm]
      simp only [St.note]
      rw [upd_ne _ _ (by intro h; rw [← h3 m' hm, h] at hm; exact hm h4)]
    | die h4 => rw [h1] at h4; cases h4
    | start => exact absurd rfl (ha _)
    | list h4 => exact absurd h4 (h2 _).1
    | listEnd h4 => exact absurd h4 (h2 _).1
    | listFail h4 => exact absurd h4 (h2 _).1
    | find h4 => exact absurd h4 (h2 _).2
    | findEnd h4 => exact absurd h4 (h2 _).2
    | findFail h4 => exact absurd h4 (h2 _).2
    | answer h4 => rw [h1] at h4; cases h4
    | finish h4 => rw [h1] at h4; cases h4
    | goOn h4 => rw [h1] at h4; cases h4
    | spawn h4 => rw [h1] at h4; cases h4
    | @crash r h4 =>
      refine ⟨⟨fun i => ?_, fun r' => ?_⟩, h3⟩
      · simp [St.note, survivors, h1]
      · simp only [St.note, upd]
        split
        · simp
        · exact h2 r'

/-- A task ends only when it has removed its mail, or when an operation other than the transport has failed. -/
theorem Reach.finish_why {P : St → Act → Prop} {s : St} (h : Reach P s) : ∀ i t a, s.task i = some t → t.ans = some a →
    next t.op a = .finish → (∃ c, t.op = .sendDone c ∧ a = .ok) ∨ (a = .err ∧ ∀ c b, t.op ≠ .transportSend c b) := by
  induction h with
  | init => intro i t a h; simp [Queue.init] at h
  | @step s s' act hr hp hs ih =>
    intro i t a ht ha hn
    cases (step_cases hs).became ht with
    | same h => exact ih i t a h ha hn
    | listed => simp at ha
    | found => simp at ha
    | answered h1 h2 h3 =>
      simp only [Option.some.injEq] at ha
      subst ha
      cases h3 with
      | take h4 h5 =>
        rcases h5 with rfl | rfl
        · simp [next] at hn
        · exact .inr ⟨rfl, fun _ _ => by simp⟩
      | fetched => simp [next] at hn
      | sent h5 => rcases h5 with rfl | rfl <;> simp [next] at hn
      | done h4 h5 =>
        rcases h5 with rfl | rfl
        · exact .inl ⟨_, rfl, rfl⟩
        · exact .inr ⟨rfl, fun _ _ => by simp⟩
      | cancelled h4 h5 =>
        rcases h5 with rfl | rfl
        · simp [next] at hn
        · exact .inr ⟨rfl, fun _ _ => by simp⟩
      | recovered h4 h5 =>
        rcases h5 with rfl | ⟨rfl, _⟩
        · simp [next] at hn
        · exact .inr ⟨rfl, fun _ _ => by simp⟩
      | waited => simp [next] at hn
      | failed h5 => exact .inr ⟨rfl, h5⟩
    | goOn => simp at ha
    | spawned => simp at ha

/-- A run that has picked up a mail has a task for it, or it knows why not. -/
theorem Reach.accounted {P : St → Act → Prop} {s : St} (h : Reach P s) {m : MailId} {r : Nat}
    (hm : Has s.log (.listed r m) ∨ ∃ c, Has s.log (.found r c) ∧ c.mail = m) (hg : s.store m ≠ .gone) :
    (∃ i t, s.task i = some t ∧ t.run = r ∧ t.op.mail = m) ∨
      (Has s.log (.crash r) ∨ ∃ i o, Has s.log (.died r i o) ∧ o.mail = m) ∨
      ∃ i o, Has s.log (.answer r i o .err) ∧ o.mail = m ∧ ∀ c b, o ≠ .transportSend c b := by
  induction h with
  | init => simp [Queue.init, Has] at hm
  | @step s s' act hr hp hs ih =>
    have hst := step_cases hs
    have hb := hr.basic
    obtain ⟨new, hnew⟩ := hst.log
    have keep : ∀ ev, Has s.log ev → Has s'.log ev := by
      rintro ev ⟨e, h1, h2⟩
      exact ⟨e, by rw [hnew]; exact List.mem_append_left _ h1, h2⟩
    have stay : (∃ i t, s.task i = some t ∧ t.run = r ∧ t.op.mail = m) →
        (∃ i t, s'.task i = some t ∧ t.run = r ∧ t.op.mail = m) ∨
          (Has s'.log (.crash r) ∨ ∃ i o, Has s'.log (.died r i o) ∧ o.mail = m) ∨
          ∃ i o, Has s'.log (.answer r i o .err) ∧ o.mail = m ∧ ∀ c b, o ≠ .transportSend c b := by
      rintro ⟨i, t, h1, h2, h2'⟩
      have hlt := (hb.task i t h1).tid
      cases hst with
      | list => exact .inl ⟨i, t, by simp only [St.spawn, St.note]; rw [upd_ne _ _ (by omega)]; exact h1, h2, h2'⟩
      | find => exact .inl ⟨i, t, by simp only [St.spawn, St.note]; rw [upd_ne _ _ (by omega)]; exact h1, h2, h2'⟩
      | @answer j r o a eff s1 h3 he =>
        obtain ⟨e1, e2, e3, e4, e5⟩ := he.same
        by_cases hij : i = j
        · subst hij
          rw [h3] at h1
          cases h1
          exact .inl ⟨i, ⟨r, o, some a⟩, by simp [St.note], h2, h2'⟩
        · exact .inl ⟨i, t, by simp only [St.note]; rw [upd_ne _ _ hij, e1]; exact h1, h2, h2'⟩
      | @finish j r' o a h3 h4 =>
        by_cases hij : i = j
        · subst hij
          rw [h3] at h1
          cases h1
          simp only at h2 h2'
          subst h2
          have hans := (hb.task i _ h3).answered _ rfl
          rcases hr.finish_why _ _ a h3 rfl h4 with ⟨c, h5, rfl⟩ | ⟨rfl, h5⟩
          · simp only at h5
            subst h5
            have := hr.kept.done _ _ _ hans
            simp only [Op.mail] at h2'
            rw [h2'] at this
            exact absurd this hg
          · exact .inr (.inr ⟨i, o, keep _ hans, h2', h5⟩)
        · exact .inl ⟨i, t, by simp only [St.note]; rw [upd_ne _ _ hij]; exact h1, h2, h2'⟩
      | @goOn j r o a o' h3 h4 =>
        by_cases hij : i = j
        · subst hij
          rw [h3] at h1
          cases h1
          exact .inl ⟨i, ⟨r, o', none⟩, by simp [St.note], h2, (hr.follows h3 (.inl h4)).trans h2'⟩
        · exact .inl ⟨i, t, by simp only [St.note]; rw [upd_ne _ _ hij]; exact h1, h2, h2'⟩
      | @spawn j r o a o' h3 h4 =>
        by_cases hij : i = j
        · subst hij
          rw [h3] at h1
          cases h1
          exact .inl ⟨s.tids, ⟨r, o', none⟩, by simp [St.note, St.spawn], h2, (hr.follows h3 (.inr h4)).trans h2'⟩
        · exact .inl ⟨i, t, by simp only [St.spawn, St.note]; rw [upd_ne _ _ (by omega), upd_ne _ _ hij]; exact h1, h2, h2'⟩
      | @crash r' h3 =>
        by_cases hrr : t.run = r'
        · refine .inr (.inl (.inl ⟨⟨s.now, .crash r'⟩, by simp [St.note], ?_⟩))
          rw [← hrr, h2]
        · exact .inl ⟨i, t, by simp only [St.note, survivors, h1]; rw [if_neg hrr], h2, h2'⟩
      | @die j t' h3 =>
        by_cases hij : i = j
        · subst hij
          rw [h3] at h1
          cases h1
          exact .inr (.inl (.inr ⟨i, t.op, ⟨⟨s.now, .died t.run i t.op⟩, by simp [St.note], by simp [h2]⟩, h2'⟩))
        · exact .inl ⟨i, t, by simp only [St.note]; rw [upd_ne _ _ hij]; exact h1, h2, h2'⟩
      | _ => exact .inl ⟨i, t, h1, h2, h2'⟩
    have hg' : s.store m ≠ .gone := by
      intro h
      apply hg
      cases hst with
      | @enqueue m' h1 => simp only [St.note]; rw [upd_ne _ _ (by intro h2; rw [← h2, h] at h1; cases h1)]; exact h
      | answer h1 he => exact (he.store m).2 h
      | _ => exact h
    by_cases hold : Has s.log (.listed r m) ∨ ∃ c, Has s.log (.found r c) ∧ c.mail = m
    · rcases ih hold hg' with h | h | ⟨i, o, h, h'⟩
      · exact stay h
      · exact .inr (.inl (h.imp (keep _) fun ⟨i, o, h1, h2⟩ => ⟨i, o, keep _ h1, h2⟩))
      · exact .inr (.inr ⟨i, o, keep _ h, h'⟩)
    · have split : ∀ ev, Has s'.log ev → Has s.log ev ∨ Has new ev := by
        rintro ev ⟨e, h1, h2⟩
        rw [hnew, List.mem_append] at h1
        exact h1.imp (fun h => ⟨e, h, h2⟩) (fun h => ⟨e, h, h2⟩)
      rcases hm with h | ⟨c, h, rfl⟩
      · rcases split _ h with h | ⟨⟨t, ev⟩, h, rfl⟩
        · exact absurd (.inl h) hold
        · obtain ⟨x, y, hxy⟩ := List.append_of_mem h
          exact .inl ⟨s.tids, _, (hst.listed hnew hxy).1, rfl, rfl⟩
      · rcases split _ h with h | ⟨⟨t, ev⟩, h, rfl⟩
        · exact absurd (.inr ⟨c, h, rfl⟩) hold
        · obtain ⟨x, y, hxy⟩ := List.append_of_mem h
          exact .inl ⟨s.tids, _, (hst.found hnew hxy).2.1, rfl, rfl⟩

end Verif.Queue
