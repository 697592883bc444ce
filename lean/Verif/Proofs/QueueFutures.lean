import Verif.Spec.QueueFutures
import Verif.Proofs.Queue

/-! # Proofs about the futures of the queue -/

namespace Verif.QFut
open Queue

/-! ### The closures -/

def k1 : Val → Built
  | .inflight im => ((call (.getMail im)).1, (call (.getMail im)).2.map fun
      | .mail b => .pair im b
      | _ => .err)
  | _ => ([], .done .err)

def k4 : Val → Built
  | .queued qm => ([.spawnSend qm], .done .unit)
  | _ => ([], .done .err)

def k3 (im : Claim) (res : Val) : Built :=
  if res = .err then ((call (.sendCancel im)).1, (call (.sendCancel im)).2.andThen k4) else call (.sendDone im)

def k2 : Val → Built
  | .pair im b => ((call (.transportSend im b)).1, (call (.transportSend im b)).2.then_ (k3 im))
  | _ => ([], .done .err)

def k5 : Val → Built
  | .queued qm => sendQueuedMail qm
  | _ => ([], .done .err)

/-- The future of a task that waits for the operation `o`. -/
def futAt : Op → Fut
  | .sendStart m => ((Fut.leaf (.sendStart m)).andThen k1).andThen k2
  | .getMail c => ((Fut.leaf (.getMail c)).map fun | .mail b => .pair c b | _ => .err).andThen k2
  | .transportSend c b => (Fut.leaf (.transportSend c b)).then_ (k3 c)
  | .sendDone c => .leaf (.sendDone c)
  | .sendCancel c => (Fut.leaf (.sendCancel c)).andThen k4
  | .delay t c => ((Fut.leaf (.delay t c)).andThen fun _ => call (.cancelFound c)).andThen k5
  | .cancelFound c => (Fut.leaf (.cancelFound c)).andThen k5

theorem sendQueuedMail_eq (m : MailId) : sendQueuedMail m = ([.call (.sendStart m)], futAt (.sendStart m)) := rfl

theorem recover_eq (t : Nat) (c : Claim) :
    recover t c = ([.call (.delay (t + 3600) c)], futAt (.delay (t + 3600) c)) := rfl

theorem chain_ready {f : Fut} {eff : Val → List Eff} {k : Val → Fut} {as as' : List (Option Ans)} {es : List PEv} {v : Val}
    (h : f.poll as = (es, .ready v, as')) :
    (Fut.chain f eff k).poll as = (es ++ (eff v).map .did ++ ((k v).poll as').1, ((k v).poll as').2) := by
  rw [Fut.poll, h]

theorem chain_notReady {f f' : Fut} {eff : Val → List Eff} {k : Val → Fut} {as as' : List (Option Ans)} {es : List PEv}
    (h : f.poll as = (es, .notReady f', as')) :
    (Fut.chain f eff k).poll as = (es, .notReady (.chain f' eff k), as') := by
  rw [Fut.poll, h]

theorem wait_empty (o : Op) : (futAt o).poll [] = ([.polled o none], .notReady (futAt o), []) := by
  cases o <;> rfl

theorem wait_none (o : Op) (as : List (Option Ans)) :
    (futAt o).poll (none :: as) = ([.polled o none], .notReady (futAt o), as) := by
  cases o <;> rfl

theorem step_finish {o : Op} {a : Ans} (hf : Fits o a) (h : next o a = .finish) (as : List (Option Ans)) :
    (futAt o).poll (some a :: as) = ([.polled o (some a)], .ready (if a ≠ .err then .unit else .err), as) := by
  cases hf <;> try (simp [next] at h; done)
  · cases o <;> first | rfl | (simp [next] at h; done)
  · rfl

theorem step_spawn {o : Op} {a : Ans} {m : MailId} (h : next o a = .spawn (.sendStart m)) (as : List (Option Ans)) :
    (futAt o).poll (some a :: as) = ([.polled o (some a), .did (.spawnSend m)], .ready .unit, as) := by
  unfold next at h
  split at h <;> simp [Queue.sendQueuedMail] at h
  subst h
  rfl

theorem step_goOn {o o' : Op} {a : Ans} (h : next o a = .goOn o') (as : List (Option Ans)) :
    (futAt o).poll (some a :: as) =
      (.polled o (some a) :: .did (.call o') :: ((futAt o').poll as).1, ((futAt o').poll as).2) := by
  unfold next at h
  split at h <;> simp [Queue.sendQueuedMail] at h <;> subst h
  · -- send_start, get_mail
    rename_i m c
    rcases as with _ | ⟨_ | a, as⟩
    · rfl
    · rfl
    · cases a <;> rfl
  · rfl
  · rename_i c b
    rfl
  · rfl
  · rcases as with _ | ⟨_ | a, as⟩
    · rfl
    · rfl
    · cases a <;> rfl
  · rfl

/-! ### One poll, and all of them -/

/-- How a future stands. -/
def OutIs : Out → Stand → Prop
  | .notReady f, .waiting o => f = futAt o
  | .ready v, .over ok => v = if ok then .unit else .err
  | _, _ => False

theorem OutIs.agrees {out : Out} {st : Stand} (h : OutIs out st) : out.Agrees st := by
  cases out <;> cases st <;> simp_all [OutIs, Out.Agrees]

theorem next_spawn {o o' : Op} {a : Ans} (h : next o a = .spawn o') : ∃ m, o' = .sendStart m := by
  unfold next at h
  split at h <;> simp [Queue.sendQueuedMail] at h
  exact ⟨_, h.symm⟩

theorem chain_head {f : Fut} {eff : Val → List Eff} {k : Val → Fut} {as : List (Option Ans)} {e : PEv}
    (h : ∃ es, (f.poll as).1 = e :: es) : ∃ es, ((Fut.chain f eff k).poll as).1 = e :: es := by
  obtain ⟨es, h⟩ := h
  rcases hp : f.poll as with ⟨es', f' | v, as'⟩ <;> rw [hp] at h <;> simp only at h <;> subst h
  · rw [chain_notReady hp]
    exact ⟨_, rfl⟩
  · rw [chain_ready hp]
    exact ⟨_, rfl⟩

theorem poll_head (o : Op) (a : Ans) (as : List (Option Ans)) :
    ∃ es, ((futAt o).poll (some a :: as)).1 = .polled o (some a) :: es := by
  have leaf : ∀ o, ∃ es, ((Fut.leaf o).poll (some a :: as)).1 = .polled o (some a) :: es := fun o => ⟨[], rfl⟩
  cases o <;> repeat first | exact leaf _ | apply chain_head

theorem poll_spec (as : List (Option Ans)) : ∀ o : Op,
    (∀ o' a, .polled o' (some a) ∈ ((futAt o).poll as).1 → Fits o' a) →
    ∃ st, OnePoll o as ((futAt o).poll as).1 st ∧ OutIs ((futAt o).poll as).2.1 st := by
  induction as with
  | nil =>
    intro o _
    rw [wait_empty]
    exact ⟨.waiting o, .noAnswer, rfl⟩
  | cons a as ih =>
    intro o hf
    cases a with
    | none =>
      rw [wait_none]
      exact ⟨.waiting o, .notReady, rfl⟩
    | some a =>
      rcases hn : next o a with _ | o' | o'
      · have hfa : Fits o a := hf o a (by obtain ⟨es, h⟩ := poll_head o a as; simp [h])
        rw [step_finish hfa hn]
        refine ⟨.over (decide (a ≠ .err)), .over hn, ?_⟩
        by_cases h : a = .err <;> simp [OutIs, h]
      · rw [step_goOn hn]
        rw [step_goOn hn] at hf
        obtain ⟨st, h1, h2⟩ := ih o' (fun o a h => hf o a (by simp [h]))
        exact ⟨st, .goOn hn h1, h2⟩
      · obtain ⟨m, rfl⟩ := next_spawn hn
        rw [step_spawn hn]
        exact ⟨.over true, .retry hn, rfl⟩

theorem polls_spec (polls : List (List (Option Ans))) : ∀ o : Op,
    (∀ o' a, ∀ es ∈ ((futAt o).polls polls).1, .polled o' (some a) ∈ es → Fits o' a) →
    ∃ st, Life o polls ((futAt o).polls polls).1 st ∧ OutIs ((futAt o).polls polls).2 st := by
  induction polls with
  | nil => exact fun o _ => ⟨.waiting o, .nothing, rfl⟩
  | cons as polls ih =>
    intro o hf
    have key := poll_spec as o
    rw [Fut.polls] at hf ⊢
    rcases hp : (futAt o).poll as with ⟨es, out, as'⟩
    rw [hp] at hf key
    cases out with
    | ready v =>
      obtain ⟨st, h1, h2⟩ := key (fun o' a h => hf o' a es (by simp) h)
      cases st with
      | waiting o' => cases h2
      | over ok => exact ⟨.over ok, .last h1, h2⟩
    | notReady f =>
      obtain ⟨st, h1, h2⟩ := key (fun o' a h => hf o' a es (by simp) h)
      cases st with
      | over ok => cases h2
      | waiting o' =>
        simp only [OutIs] at h2
        subst h2
        obtain ⟨st, h3, h4⟩ := ih o' (fun o'' a es' h h' => hf o'' a es' (by simp [h]) h')
        exact ⟨st, .again h1 h3, h4⟩

/-! ### The transition system -/

theorem Effect.fits {s s1 : St} {o : Op} {a : Ans} {eff : Bool} (h : effect s o a eff = some s1) : Fits o a := by
  unfold effect at h
  split at h <;> first | constructor | (simp at h; done)

/-- What a step is for the task `i`. -/
inductive View (i : Nat) (s : St) : Act → St → List Entry → Prop
  | other {act s1 new} : s1.task i = s.task i → heard i [act] = [] → (∀ rest, told i (new.map (·.ev) ++ rest) = told i rest) →
      View i s act s1 new
  | answer {r o a eff s1 new} : s.task i = some ⟨r, o, none⟩ → Fits o a → s1.task i = some ⟨r, o, some a⟩ →
      (∀ rest, told i (new.map (·.ev) ++ rest) = .polled o (some a) :: told i rest) → View i s (.answer i a eff) s1 new
  | finish {r o a s1 new} : s.task i = some ⟨r, o, some a⟩ → next o a = .finish → s1.task i = none →
      (∀ rest, told i (new.map (·.ev) ++ rest) = told i rest) → View i s (.proceed i) s1 new
  | goOn {r o a o' s1 new} : s.task i = some ⟨r, o, some a⟩ → next o a = .goOn o' → s1.task i = some ⟨r, o', none⟩ →
      (∀ rest, told i (new.map (·.ev) ++ rest) = .did (.call o') :: told i rest) → View i s (.proceed i) s1 new
  | spawn {r o a m s1 new} : s.task i = some ⟨r, o, some a⟩ → next o a = .spawn (.sendStart m) → s1.task i = none →
      (∀ rest, told i (new.map (·.ev) ++ rest) = .did (.spawnSend m) :: told i rest) → View i s (.proceed i) s1 new
  | crash {r t s1 new} : s.task i = some t → t.run = r → View i s (.crash r) s1 new
  | die {t s1 new} : s.task i = some t → View i s (.die i) s1 new

theorem Effect.quiet {s s1 : St} {o : Op} {a : Ans} {eff : Bool} (h : Effect s o a eff s1) :
    s1.task = s.task ∧ s1.tids = s.tids ∧ s1.log = s.log := by
  cases h <;> simp [St.take]

theorem step_view {s s1 : St} {act : Act} (h : step s act = some s1) {i : Nat} (hi : i < s.tids) :
    i < s1.tids ∧ ∃ new, s1.log = s.log ++ new ∧ View i s act s1 new := by
  have hs := step_cases h
  have hne : s.tids ≠ i := by omega
  have hne' : i ≠ s.tids := by omega
  cases hs with
  | tick => exact ⟨hi, [], by simp, .other rfl rfl (fun _ => rfl)⟩
  | enqueue => exact ⟨hi, _, rfl, .other rfl rfl (fun _ => rfl)⟩
  | start => exact ⟨hi, _, rfl, .other rfl rfl (fun _ => rfl)⟩
  | listEnd => exact ⟨hi, _, rfl, .other rfl rfl (fun _ => rfl)⟩
  | listFail => exact ⟨hi, _, rfl, .other rfl rfl (fun _ => rfl)⟩
  | findEnd => exact ⟨hi, _, rfl, .other rfl rfl (fun _ => rfl)⟩
  | findFail => exact ⟨hi, _, rfl, .other rfl rfl (fun _ => rfl)⟩
  | list | find =>
    refine ⟨by simp [St.spawn, St.note]; omega, _, by simp only [spawn_log, note_log, List.append_assoc]; rfl, .other ?_ rfl ?_⟩
    · simp [St.spawn, St.note, upd_ne _ _ hne']
    · intro rest
      simp [told, St.note, hne]
  | @answer tid r o a eff s2 ht he =>
    obtain ⟨h1, h2, h3⟩ := Effect.quiet he
    have hf : Fits o a := by
      simp only [step, ht, Option.map_eq_some_iff] at h
      obtain ⟨_, h, _⟩ := h
      exact Effect.fits h
    refine ⟨by simp [St.note, h2, hi], _, by rw [note_log, h3], ?_⟩
    by_cases hti : tid = i
    · subst hti
      exact .answer ht hf (by simp [St.note]) (fun rest => by simp [told])
    · exact .other (by simp [St.note, upd_ne _ _ (Ne.symm hti), h1]) (by simp [heard, hti]) (fun rest => by simp [told, hti])
  | @finish tid r o a ht hn =>
    refine ⟨hi, _, rfl, ?_⟩
    by_cases hti : tid = i
    · subst hti
      exact .finish ht hn (by simp [St.note]) (fun rest => by simp [told])
    · exact .other (by simp [St.note, upd_ne _ _ (Ne.symm hti)]) rfl (fun rest => by simp [told])
  | @goOn tid r o a o' ht hn =>
    refine ⟨hi, _, rfl, ?_⟩
    by_cases hti : tid = i
    · subst hti
      exact .goOn ht hn (by simp [St.note]) (fun rest => by simp [told])
    · exact .other (by simp [St.note, upd_ne _ _ (Ne.symm hti)]) rfl (fun rest => by simp [told, hti])
  | @spawn tid r o a o' ht hn =>
    obtain ⟨m, rfl⟩ := next_spawn hn
    refine ⟨by simp [St.spawn, St.note]; omega, _, by simp only [spawn_log, note_log, List.append_assoc]; rfl, ?_⟩
    by_cases hti : tid = i
    · subst hti
      exact .spawn ht hn (by simp [St.spawn, St.note, upd_ne _ _ hne']) (fun rest => by simp [told, St.note])
    · exact .other (by simp [St.spawn, St.note, upd_ne _ _ hne', upd_ne _ _ (Ne.symm hti)]) rfl
        (fun rest => by simp [told, St.note, hti, hne])
  | @crash r hp =>
    refine ⟨hi, _, rfl, ?_⟩
    rcases ht : s.task i with _ | t
    · exact .other (by simp [St.note, survivors, ht]) rfl (fun rest => by simp [told])
    · by_cases htr : t.run = r
      · exact .crash ht htr
      · exact .other (by simp [St.note, survivors, ht, htr]) rfl (fun rest => by simp [told])
  | @die tid t ht =>
    refine ⟨hi, _, rfl, ?_⟩
    by_cases hti : tid = i
    · subst hti
      exact .die ht
    · exact .other (by simp [St.note, upd_ne _ _ (Ne.symm hti)]) rfl (fun rest => by simp [told])

theorem seen_cons_some (o : Op) (a : Ans) (es : List PEv) : seen (.polled o (some a) :: es) = .polled o (some a) :: seen es := rfl
theorem seen_did (e : Eff) (es : List PEv) : seen (.did e :: es) = .did e :: seen es := rfl

/-- What is left to be seen of task `i`, given the answers to come. -/
def Left (i : Nat) (t : Option Task) (as : List Ans) (es : List PEv) (t' : Option Task) : Prop :=
  match t with
  | none => es = [] ∧ as = [] ∧ t' = none
  | some ⟨r, o, ans⟩ => (∀ x, t' = some x → x.ans = none) →
    (ans.map fun a => PEv.polled o (some a)).toList ++ es = seen ((futAt o).poll ((ans.toList ++ as).map some)).1 ∧
      match ((futAt o).poll ((ans.toList ++ as).map some)).2.1 with
      | .ready _ => t' = none
      | .notReady f => ∃ o', f = futAt o' ∧ t' = some ⟨r, o', none⟩

theorem exec_view {i r : Nat} (acts : List Act) : ∀ {s s' : St}, i < s.tids → exec s acts = some s' → .crash r ∉ acts → .die i ∉ acts →
    (∀ t, s.task i = some t → t.run = r ∧ ∀ a, t.ans = some a → Fits t.op a) →
    ∃ new, s'.log = s.log ++ new ∧ Left i (s.task i) (heard i acts) (told i (new.map (·.ev))) (s'.task i) := by
  induction acts with
  | nil =>
    intro s s' hi he _ _ hr
    cases he
    refine ⟨[], by simp, ?_⟩
    rcases ht : s.task i with _ | ⟨r', o, _ | a⟩
    · exact ⟨rfl, rfl, rfl⟩
    · intro _
      simp only [heard, List.filterMap_nil, Option.toList, List.append_nil, List.map_nil, wait_empty]
      exact ⟨rfl, o, rfl, rfl⟩
    · intro h
      exact absurd (h _ rfl) (by simp)
  | cons act acts ih =>
    intro s s' hi he hc hd hr
    rw [exec] at he
    split at he
    · rename_i s1 hs1
      obtain ⟨hi1, new1, hl1, hv⟩ := step_view hs1 hi
      have hh : heard i (act :: acts) = heard i [act] ++ heard i acts := by
        simp [heard, List.filterMap_cons]; split <;> simp
      cases hv with
      | other h1 h2 h3 =>
        obtain ⟨new, hl, hleft⟩ := ih hi1 he (fun h => hc (by simp [h])) (fun h => hd (by simp [h])) (by rw [h1]; exact hr)
        refine ⟨new1 ++ new, by rw [hl, hl1, List.append_assoc], ?_⟩
        rw [List.map_append, h3, hh, h2, List.nil_append, ← h1]
        exact hleft
      | @answer r' o a eff _ _ ht hf h1 h3 =>
        obtain ⟨new, hl, hleft⟩ := ih hi1 he (fun h => hc (by simp [h])) (fun h => hd (by simp [h])) (by
          rw [h1]; intro t h; cases h; exact ⟨(hr _ ht).1, fun _ h => by cases h; exact hf⟩)
        refine ⟨new1 ++ new, by rw [hl, hl1, List.append_assoc], ?_⟩
        rw [List.map_append, h3, hh, ht]
        rw [h1] at hleft
        simpa [Left, heard] using hleft
      | @finish r' o a _ _ ht hn h1 h3 =>
        obtain ⟨new, hl, hleft⟩ := ih hi1 he (fun h => hc (by simp [h])) (fun h => hd (by simp [h])) (by
          rw [h1]; intro t h; cases h)
        refine ⟨new1 ++ new, by rw [hl, hl1, List.append_assoc], ?_⟩
        rw [List.map_append, h3, hh, ht]
        rw [h1] at hleft
        obtain ⟨l1, l2, l3⟩ := hleft
        intro _
        rw [l1, l2]
        simp [heard, step_finish ((hr _ ht).2 a rfl) hn, seen, l3]
      | @goOn r' o a o' _ _ ht hn h1 h3 =>
        obtain ⟨new, hl, hleft⟩ := ih hi1 he (fun h => hc (by simp [h])) (fun h => hd (by simp [h])) (by
          rw [h1]; intro t h; cases h; exact ⟨(hr _ ht).1, fun _ h => by cases h⟩)
        refine ⟨new1 ++ new, by rw [hl, hl1, List.append_assoc], ?_⟩
        rw [List.map_append, h3, hh, ht]
        rw [h1] at hleft
        intro hx
        obtain ⟨l1, l2⟩ := hleft hx
        simp only [heard, List.filterMap_cons, List.filterMap_nil, List.nil_append, Option.toList, List.cons_append, List.map_cons,
          step_goOn hn, seen_cons_some, seen_did, Option.map] at l1 l2 ⊢
        exact ⟨by rw [← l1], l2⟩
      | @spawn r' o a m _ _ ht hn h1 h3 =>
        obtain ⟨new, hl, hleft⟩ := ih hi1 he (fun h => hc (by simp [h])) (fun h => hd (by simp [h])) (by
          rw [h1]; intro t h; cases h)
        refine ⟨new1 ++ new, by rw [hl, hl1, List.append_assoc], ?_⟩
        rw [List.map_append, h3, hh, ht]
        rw [h1] at hleft
        obtain ⟨l1, l2, l3⟩ := hleft
        intro _
        rw [l1, l2]
        simp [heard, step_spawn hn, seen, l3]
      | @crash r' t _ _ ht htr => exact absurd (by simp [← htr, (hr t ht).1]) hc
      | die ht => exact absurd (by simp) hd
    · simp at he

/-! ### How the polls are cut -/

theorem poll_split (f : Fut) : ∀ (as : List Ans) (bs : List (Option Ans)),
    (∀ es v l, f.poll (as.map some) = (es, .ready v, l) →
      (∃ l' : List Ans, l = l'.map some) ∧ f.poll (as.map some ++ bs) = (es, .ready v, l ++ bs)) ∧
    (∀ es f' l, f.poll (as.map some) = (es, .notReady f', l) →
      l = [] ∧ ∃ es0 o, es = es0 ++ [.polled o none] ∧ f.poll (as.map some ++ bs) = (es0 ++ (f'.poll bs).1, (f'.poll bs).2)) := by
  induction f with
  | leaf o =>
    intro as bs
    cases as with
    | nil =>
      refine ⟨fun es v l h => by simp [Fut.poll] at h, fun es f' l h => ?_⟩
      simp only [List.map_nil, Fut.poll, Prod.mk.injEq, Out.notReady.injEq] at h
      obtain ⟨rfl, rfl, rfl⟩ := h
      exact ⟨rfl, [], o, rfl, rfl⟩
    | cons a as =>
      refine ⟨fun es v l h => ?_, fun es v l h => by simp [Fut.poll] at h⟩
      simp only [List.map_cons, Fut.poll, Prod.mk.injEq, Out.ready.injEq] at h
      obtain ⟨rfl, rfl, rfl⟩ := h
      exact ⟨⟨as, rfl⟩, rfl⟩
  | done v =>
    intro as bs
    refine ⟨fun es v l h => ?_, fun es v l h => by simp [Fut.poll] at h⟩
    simp only [Fut.poll, Prod.mk.injEq, Out.ready.injEq] at h
    obtain ⟨rfl, rfl, rfl⟩ := h
    exact ⟨⟨as, rfl⟩, rfl⟩
  | chain f eff k ih ihk =>
    intro as bs
    rcases hp : f.poll (as.map some) with ⟨es, f' | v, l⟩
    · obtain ⟨rfl, es0, o, rfl, h2⟩ := (ih as bs).2 _ _ _ hp
      rw [chain_notReady hp]
      refine ⟨fun es v l h => by simp at h, fun es f'' l h => ?_⟩
      simp only [Prod.mk.injEq, Out.notReady.injEq] at h
      obtain ⟨rfl, rfl, rfl⟩ := h
      refine ⟨rfl, es0, o, rfl, ?_⟩
      rcases hq : f'.poll bs with ⟨es1, f1 | v1, l1⟩ <;> rw [hq] at h2
      · rw [chain_notReady h2, chain_notReady hq]
      · rw [chain_ready h2, chain_ready hq]
        simp
    · obtain ⟨⟨l', rfl⟩, h2⟩ := (ih as bs).1 _ _ _ hp
      rw [chain_ready hp, chain_ready h2]
      obtain ⟨k1, k2⟩ := ihk v l' bs
      refine ⟨fun es' v' l h => ?_, fun es' f' l h => ?_⟩ <;> simp only [Prod.mk.injEq] at h <;> obtain ⟨rfl, h⟩ := h
      · obtain ⟨h3, h4⟩ := k1 _ v' l (Prod.ext rfl h)
        exact ⟨h3, by rw [h4]⟩
      · obtain ⟨rfl, es0, o, h4, h5⟩ := k2 _ f' l (Prod.ext rfl h)
        exact ⟨rfl, es ++ (eff v).map .did ++ es0, o, by
          have h4' : ((k v).poll (l'.map some)).fst = _ := h4
          rw [h4']; simp, by rw [h5]; simp⟩

theorem polls_split (ps : List (List Ans)) : ∀ (f : Fut) (p : List Ans),
    seen (f.polls ((p :: ps).map (·.map some))).1.flatten = seen (f.poll ((p :: ps).flatten.map some)).1 ∧
    (f.polls ((p :: ps).map (·.map some))).2 = (f.poll ((p :: ps).flatten.map some)).2.1 := by
  induction ps with
  | nil =>
    intro f p
    simp only [List.map_cons, List.map_nil, Fut.polls, List.flatten_cons, List.flatten_nil, List.append_nil]
    rcases hp : f.poll (p.map some) with ⟨es, f' | v, l⟩ <;> simp
  | cons q ps ih =>
    intro f p
    have hs := poll_split f p ((q :: ps).flatten.map some)
    rw [List.map_cons, Fut.polls, List.flatten_cons, List.map_append]
    rcases hp : f.poll (p.map some) with ⟨es, f' | v, l⟩
    · obtain ⟨rfl, es0, o, rfl, h2⟩ := hs.2 _ _ _ hp
      rw [h2]
      obtain ⟨i1, i2⟩ := ih f' q
      refine ⟨?_, i2⟩
      simp only [List.flatten_cons]
      simp only [seen, List.filter_append] at i1 ⊢
      rw [i1]
      simp
    · obtain ⟨⟨l', rfl⟩, h2⟩ := hs.1 _ _ _ hp
      rw [h2]
      simp

/-! ### All that is seen of a task -/

/-- The order of the operations. -/
def rank : Op → Nat
  | .delay _ _ => 6
  | .cancelFound _ => 5
  | .sendStart _ => 4
  | .getMail _ => 3
  | .transportSend _ _ => 2
  | .sendDone _ => 1
  | .sendCancel _ => 1

theorem next_rank {o o' : Op} {a : Ans} (h : next o a = .goOn o') : rank o' < rank o := by
  unfold next at h
  split at h <;> simp [Queue.sendQueuedMail] at h <;> subst h <;> simp [rank]

/-- What is seen of a task that waits for `o`. -/
inductive Tr : Op → List PEv → Prop
  | nil {o} : Tr o []
  | notReady {o es} : Tr o es → Tr o (.polled o none :: es)
  | over {o a} : Tr o [.polled o (some a)]
  | retry {o a m} : next o a = .spawn (.sendStart m) → Tr o [.polled o (some a), .did (.spawnSend m)]
  | goOn {o a o' es} : next o a = .goOn o' → Tr o' es → Tr o (.polled o (some a) :: .did (.call o') :: es)

theorem OnePoll.tr {o o' : Op} {as : List (Option Ans)} {es es' : List PEv} (h : OnePoll o as es (.waiting o')) (h' : Tr o' es') :
    Tr o (es ++ es') := by
  generalize hst : Stand.waiting o' = st at h
  induction h with
  | noAnswer => cases hst; exact .notReady h'
  | notReady => cases hst; exact .notReady h'
  | over => cases hst
  | retry => cases hst
  | goOn hn _ ih => exact .goOn hn (ih hst)

theorem OnePoll.trOver {o : Op} {ok : Bool} {as : List (Option Ans)} {es : List PEv} (h : OnePoll o as es (.over ok)) :
    Tr o es := by
  generalize hst : Stand.over ok = st at h
  induction h with
  | noAnswer => cases hst
  | notReady => cases hst
  | over => exact .over
  | retry hn => exact .retry hn
  | goOn hn _ ih => exact .goOn hn (ih hst)

theorem Life.tr {o : Op} {polls : List (List (Option Ans))} {ess : List (List PEv)} {st : Stand} (h : Life o polls ess st) :
    Tr o ess.flatten := by
  induction h with
  | nothing => exact .nil
  | again h1 _ ih => exact h1.tr ih
  | last h => simpa using h.trOver

/-- The operation of an event. -/
def PEv.About (o : Op) : PEv → Prop
  | .polled o' _ => o' = o
  | .did (.call o') => o' = o
  | _ => False

theorem Tr.ranked {o : Op} {es : List PEv} (h : Tr o es) : 
    ∀ o' e, e ∈ es → e.About o' → rank o' ≤ rank o ∧ (e = .did (.call o') → rank o' < rank o) := by
  induction h with
  | nil => intro _ _ h; simp at h
  | notReady _ ih =>
    intro o' e he hab
    rcases List.mem_cons.1 he with rfl | he
    · cases hab; simp
    · exact ih o' e he hab
  | over =>
    intro o' e he hab
    simp only [List.mem_singleton] at he
    subst he; cases hab; simp
  | retry =>
    intro o' e he hab
    simp only [List.mem_cons, List.not_mem_nil, or_false] at he
    rcases he with rfl | rfl
    · cases hab; simp
    · cases hab
  | goOn hn _ ih =>
    intro o' e he hab
    have hr := next_rank hn
    rcases List.mem_cons.1 he with rfl | he
    · cases hab; simp
    rcases List.mem_cons.1 he with rfl | he
    · cases hab; exact ⟨by omega, fun _ => hr⟩
    · obtain ⟨h1, h2⟩ := ih o' e he hab
      exact ⟨by omega, fun h => by have := h2 h; omega⟩

/-- After it has answered, and once it has been called, an operation is not called again; once it has answered, it is not polled. -/
def Fresh (e e' : PEv) : Prop :=
  (∀ o a, e = .polled o (some a) → ¬ e'.About o) ∧ (∀ o, e = .did (.call o) → e' ≠ .did (.call o))

theorem Tr.fresh {o : Op} {es : List PEv} (h : Tr o es) : es.Pairwise Fresh := by
  induction h with
  | nil => exact .nil
  | notReady h ih => exact .cons (fun e _ => ⟨fun _ _ h => (nomatch h), fun _ h => (nomatch h)⟩) ih
  | over => simp
  | retry =>
    refine .cons (fun e he => ?_) (by simp)
    simp only [List.mem_singleton] at he
    subst he
    exact ⟨fun _ _ _ h => h, fun _ h => (nomatch h)⟩
  | @goOn o a o' es hn ht ih =>
    have hr := next_rank hn
    refine .cons (fun e he => ⟨fun o1 a1 h1 hab => ?_, fun _ h => (nomatch h)⟩) (.cons (fun e he => ⟨fun _ _ h => (nomatch h), fun o1 h1 h2 => ?_⟩) ih)
    · cases h1
      rcases List.mem_cons.1 he with rfl | he
      · cases hab; omega
      · have := (ht.ranked o e he hab).1; omega
    · cases h1
      subst h2
      have := (ht.ranked o' _ he rfl).2 rfl
      omega

theorem Tr.called {o : Op} {es : List PEv} (h : Tr o es) : ∀ pre o' x post, es = pre ++ .polled o' x :: post →
    o' = o ∨ .did (.call o') ∈ pre := by
  induction h with
  | nil => intro pre _ _ _ h; simp at h
  | @notReady o es _ ih =>
    intro pre o' x post h
    rcases pre with _ | ⟨e, pre⟩
    · simp at h; exact .inl h.1.1.symm
    · simp at h
      rcases ih pre o' x post h.2 with h1 | h1
      · exact .inl h1
      · exact .inr (by simp [h1])
  | over =>
    intro pre o' x post h
    rcases pre with _ | ⟨e, pre⟩
    · simp at h; exact .inl h.1.1.symm
    · simp at h
  | retry =>
    intro pre o' x post h
    rcases pre with _ | ⟨e, _ | ⟨e', pre⟩⟩ <;> simp at h
    exact .inl h.1.1.symm
  | goOn hn _ ih =>
    intro pre o' x post h
    rcases pre with _ | ⟨e, _ | ⟨e', pre⟩⟩ <;> simp at h
    · exact .inl h.1.1.symm
    · obtain ⟨rfl, rfl, h⟩ := h
      rcases ih pre o' x post h with h1 | h1
      · exact .inr (by simp [h1])
      · exact .inr (by simp [h1])

theorem Tr.oneByOne {o : Op} {es : List PEv} (h : Tr o es) : ∀ pre o' post, es = pre ++ .did (.call o') :: post →
    (∃ a, .polled o (some a) ∈ pre) ∧ ∀ o1, .did (.call o1) ∈ pre → ∃ a, .polled o1 (some a) ∈ pre := by
  induction h with
  | nil => intro pre _ _ h; simp at h
  | notReady _ ih =>
    intro pre o' post h
    rcases pre with _ | ⟨e, pre⟩ <;> simp at h
    obtain ⟨⟨a, h1⟩, h2⟩ := ih pre o' post h.2
    refine ⟨⟨a, by simp [h1]⟩, fun o1 ho1 => ?_⟩
    rcases List.mem_cons.1 ho1 with ho1 | ho1
    · rw [← h.1] at ho1; cases ho1
    · obtain ⟨a, h3⟩ := h2 o1 ho1
      exact ⟨a, by simp [h3]⟩
  | over =>
    intro pre o' post h
    rcases pre with _ | ⟨e, pre⟩ <;> simp at h
  | retry =>
    intro pre o' post h
    rcases pre with _ | ⟨e, _ | ⟨e', pre⟩⟩ <;> simp at h
  | @goOn o a o2 es hn _ ih =>
    intro pre o' post h
    rcases pre with _ | ⟨e, _ | ⟨e', pre⟩⟩ <;> simp at h
    · obtain ⟨rfl, rfl, rfl⟩ := h
      exact ⟨⟨a, by simp⟩, fun o1 ho1 => by simp at ho1⟩
    · obtain ⟨rfl, rfl, h⟩ := h
      obtain ⟨⟨a', h1⟩, h2⟩ := ih pre o' post h
      refine ⟨⟨a, by simp⟩, fun o1 ho1 => ?_⟩
      simp only [List.mem_cons, reduceCtorEq, false_or] at ho1
      rcases ho1 with ho1 | ho1
      · cases ho1; exact ⟨a', by simp [h1]⟩
      · obtain ⟨a, h3⟩ := h2 o1 ho1
        exact ⟨a, by simp [h3]⟩

theorem Tr.retries {o : Op} {es : List PEv} (h : Tr o es) : ∀ pre e post, es = pre ++ .did e :: post → (∀ o, e ≠ .call o) →
    post = [] ∧ ∃ c m pre', e = .spawnSend m ∧ pre = pre' ++ [.polled (.sendCancel c) (some (.queued m))] := by
  induction h with
  | nil => intro pre _ _ h; simp at h
  | notReady _ ih =>
    intro pre e post h he
    rcases pre with _ | ⟨e', pre⟩ <;> simp at h
    obtain ⟨h1, c, m, pre', h2, h3⟩ := ih pre e post h.2 he
    exact ⟨h1, c, m, e' :: pre', h2, by rw [h3]; rfl⟩
  | over =>
    intro pre e post h he
    rcases pre with _ | ⟨e', pre⟩ <;> simp at h
  | @retry o a m hn =>
    intro pre e post h he
    rcases pre with _ | ⟨e1, _ | ⟨e2, pre⟩⟩ <;> simp at h
    obtain ⟨rfl, rfl, rfl⟩ := h
    refine ⟨rfl, ?_⟩
    have hf := next_cases hn
    cases hf
    exact ⟨_, m, [], rfl, rfl⟩
  | goOn hn _ ih =>
    intro pre e post h he
    rcases pre with _ | ⟨e1, _ | ⟨e2, pre⟩⟩ <;> simp at h
    · exact absurd h.2.1.symm (he _)
    · obtain ⟨rfl, rfl, h⟩ := h
      obtain ⟨h1, c, m, pre', h2, h3⟩ := ih pre e post h he
      exact ⟨h1, c, m, _ :: _ :: pre', h2, by rw [h3]; rfl⟩

/-! ### `run` -/

theorem each_done {α : Type} (ev : SAns α → REv) (f : α → Built) (as : List (SAns α)) :
    ForEach.poll ev f (some (.done .unit)) as = ForEach.poll ev f none as := by
  cases as <;> rfl

/-- How a poll of `for_each` ends. -/
def FOutIs : FOut → Fin → Prop
  | .notReady fe, .notReady => fe = none
  | .ready, .ended => True
  | .err, .err => True
  | _, _ => False

theorem each_spec {α : Type} (ev : SAns α → REv) (f : α → Built) (eff : α → Eff) (hf : ∀ x, f x = ([eff x], .done .unit))
    (as : List (SAns α)) : ∃ fin, Each ev eff as (ForEach.poll ev f none as).1 fin ∧ FOutIs (ForEach.poll ev f none as).2 fin := by
  induction as with
  | nil => exact ⟨.notReady, .noAnswer, rfl⟩
  | cons a as ih =>
    cases a with
    | notReady => exact ⟨.notReady, .notReady, rfl⟩
    | ended => exact ⟨.ended, .ended, trivial⟩
    | err => exact ⟨.err, .err, trivial⟩
    | item x =>
      obtain ⟨fin, h1, h2⟩ := ih
      have : ForEach.poll ev f none (.item x :: as) =
          (ev (.item x) :: .did (eff x) :: (ForEach.poll ev f none as).1, (ForEach.poll ev f none as).2) := by
        rw [ForEach.poll]
        simp [ForEach.inner, hf, each_done]
      rw [this]
      exact ⟨fin, .item h1, h2⟩

/-- How `run` stands. -/
def ROutIs : ROut → RStand → Prop
  | .notReady f, .listing => f = .first none
  | .notReady f, .finding => f = .second none
  | .ready, .over true => True
  | .err, .over false => True
  | _, _ => False

theorem ROutIs.agrees {out : ROut} {st : RStand} (h : ROutIs out st) : out.Agrees st := by
  rcases out with _ | _ | _ <;> rcases st with _ | _ | (_ | _) <;> simp_all [ROutIs, ROut.Agrees]

theorem second_spec (t : Nat) (as : List (SAns MailId)) (bs : List (SAns Claim)) :
    ∃ st, RunPoll t .finding as bs (RunFut.pollSecond t none bs).1 st ∧ ROutIs (RunFut.pollSecond t none bs).2 st := by
  obtain ⟨fin, h1, h2⟩ := each_spec .polledFind (found t) (.spawnRecover (t + 3600)) (fun _ => rfl) bs
  unfold RunFut.pollSecond
  rcases hp : ForEach.poll .polledFind (found t) none bs with ⟨es, fe | _ | _⟩ <;> rw [hp] at h1 h2 <;> cases fin <;>
    simp only [FOutIs] at h2
  · subst h2; exact ⟨.finding, .finding h1, rfl⟩
  · exact ⟨.over true, .found h1, trivial⟩
  · exact ⟨.over false, .findFailed h1, trivial⟩

theorem first_spec (t : Nat) (as : List (SAns MailId)) (bs : List (SAns Claim)) :
    ∃ st, RunPoll t .listing as bs ((RunFut.first none).poll t as bs).1 st ∧ ROutIs ((RunFut.first none).poll t as bs).2 st := by
  obtain ⟨fin, h1, h2⟩ := each_spec .polledList listed .spawnSend (fun _ => rfl) as
  rw [RunFut.poll]
  rcases hp : ForEach.poll .polledList listed none as with ⟨es, fe | _ | _⟩ <;> rw [hp] at h1 h2 <;> cases fin <;>
    simp only [FOutIs] at h2
  · subst h2; exact ⟨.listing, .listing h1, rfl⟩
  · obtain ⟨st, h3, h4⟩ := second_spec t as bs
    exact ⟨st, .listed h1 h3, h4⟩
  · exact ⟨.over false, .listFailed h1, trivial⟩

/-- The future of `run` in the two stages. -/
def runAt : RStand → RunFut
  | .listing => .first none
  | _ => .second none

theorem runPolls_spec (t : Nat) (polls : List (List (SAns MailId) × List (SAns Claim))) : ∀ st : RStand, (∀ ok, st ≠ .over ok) →
    ∃ st', RunLife t st polls ((runAt st).polls t polls).1 st' ∧ ROutIs ((runAt st).polls t polls).2 st' := by
  induction polls with
  | nil =>
    intro st hst
    refine ⟨st, .nothing, ?_⟩
    cases st with
    | listing => rfl
    | finding => rfl
    | over ok => exact absurd rfl (hst ok)
  | cons p polls ih =>
    obtain ⟨as, bs⟩ := p
    intro st hst
    obtain ⟨st', h1, h2⟩ : ∃ st', RunPoll t st as bs ((runAt st).poll t as bs).1 st' ∧ ROutIs ((runAt st).poll t as bs).2 st' := by
      cases st with
      | listing => exact first_spec t as bs
      | finding => exact second_spec t as bs
      | over ok => exact absurd rfl (hst ok)
    rw [RunFut.polls]
    rcases hp : (runAt st).poll t as bs with ⟨es, f | _ | _⟩ <;> rw [hp] at h1 h2
    · have hst' : (∀ ok, st' ≠ .over ok) ∧ f = runAt st' := by
        cases st' with
        | listing => exact ⟨fun _ h => (nomatch h), h2⟩
        | finding => exact ⟨fun _ h => (nomatch h), h2⟩
        | over ok => cases ok <;> cases h2
      obtain ⟨h3, rfl⟩ := hst'
      obtain ⟨st'', h4, h5⟩ := ih st' h3
      exact ⟨st'', .again h1 h3 h4, h5⟩
    · rcases st' with _ | _ | (_ | _) <;> simp only [ROutIs] at h2
      exact ⟨_, .last h1, trivial⟩
    · rcases st' with _ | _ | (_ | _) <;> simp only [ROutIs] at h2
      exact ⟨_, .last h1, trivial⟩

theorem first_item (t : Nat) (m : MailId) (as : List (SAns MailId)) (bs : List (SAns Claim)) :
    (RunFut.first none).poll t (.item m :: as) bs =
      (.polledList (.item m) :: .did (.spawnSend m) :: ((RunFut.first none).poll t as bs).1, ((RunFut.first none).poll t as bs).2) := by
  have : ForEach.poll .polledList listed none (.item m :: as) =
      (.polledList (.item m) :: .did (.spawnSend m) :: (ForEach.poll .polledList listed none as).1,
        (ForEach.poll .polledList listed none as).2) := by
    rw [ForEach.poll]
    simp [ForEach.inner, listed, each_done]
  simp only [RunFut.poll, this]
  rcases ForEach.poll .polledList listed none as with ⟨es, fe | _ | _⟩ <;> rfl

theorem second_item (t : Nat) (c : Claim) (as : List (SAns MailId)) (bs : List (SAns Claim)) :
    (RunFut.second none).poll t as (.item c :: bs) =
      (.polledFind (.item c) :: .did (.spawnRecover (t + recoveryDelay) c) :: ((RunFut.second none).poll t as bs).1,
        ((RunFut.second none).poll t as bs).2) := by
  have : ForEach.poll .polledFind (found t) none (.item c :: bs) =
      (.polledFind (.item c) :: .did (.spawnRecover (t + recoveryDelay) c) :: (ForEach.poll .polledFind (found t) none bs).1,
        (ForEach.poll .polledFind (found t) none bs).2) := by
    rw [ForEach.poll]
    simp [ForEach.inner, found, each_done]
  simp only [RunFut.poll, RunFut.pollSecond, this]
  rcases ForEach.poll .polledFind (found t) none bs with ⟨es, fe | _ | _⟩ <;> rfl

/-- What a step is for run `r`. -/
inductive RView (r : Nat) (s : St) : Act → St → List Entry → Prop
  | other {act s1 new} : (s1.runs r).phase = (s.runs r).phase → lists r [act] = [] → finds r [act] = [] →
      (∀ rest, rtold r (new.map (·.ev) ++ rest) = rtold r rest) → RView r s act s1 new
  | list {m s1 new} : (s.runs r).phase = .listing → (s1.runs r).phase = .listing →
      (∀ rest, rtold r (new.map (·.ev) ++ rest) = .polledList (.item m) :: .did (.spawnSend m) :: rtold r rest) →
      RView r s (.list r m) s1 new
  | listEnd {s1 new} : (s.runs r).phase = .listing → (s1.runs r).phase = .finding →
      (∀ rest, rtold r (new.map (·.ev) ++ rest) = .polledList .ended :: .calledFind :: rtold r rest) →
      RView r s (.listEnd r) s1 new
  | listFail {s1 new} : (s.runs r).phase = .listing → (s1.runs r).phase = .failed →
      (∀ rest, rtold r (new.map (·.ev) ++ rest) = .polledList .err :: rtold r rest) → RView r s (.listFail r) s1 new
  | find {c s1 new} : (s.runs r).phase = .finding → (s1.runs r).phase = .finding →
      (∀ rest, rtold r (new.map (·.ev) ++ rest) =
        .polledFind (.item c) :: .did (.spawnRecover ((s.runs r).startup + recoveryDelay) c) :: rtold r rest) →
      RView r s (.find r c) s1 new
  | findEnd {s1 new} : (s.runs r).phase = .finding → (s1.runs r).phase = .finished →
      (∀ rest, rtold r (new.map (·.ev) ++ rest) = .polledFind .ended :: rtold r rest) → RView r s (.findEnd r) s1 new
  | findFail {s1 new} : (s.runs r).phase = .finding → (s1.runs r).phase = .failed →
      (∀ rest, rtold r (new.map (·.ev) ++ rest) = .polledFind .err :: rtold r rest) → RView r s (.findFail r) s1 new
  | crash {s1 new} : RView r s (.crash r) s1 new

theorem Effect.runs {s s1 : St} {o : Op} {a : Ans} {eff : Bool} (h : Effect s o a eff s1) : s1.runs = s.runs := by
  cases h <;> simp [St.take]

theorem step_rview {s s1 : St} {act : Act} (h : step s act = some s1) {r : Nat} (hr : (s.runs r).phase ≠ .notStarted) :
    (s1.runs r).startup = (s.runs r).startup ∧ (s1.runs r).phase ≠ .notStarted ∧
      ∃ new, s1.log = s.log ++ new ∧ RView r s act s1 new := by
  have hs := step_cases h
  have other : ∀ new, s1.log = s.log ++ new → s1.runs r = s.runs r → lists r [act] = [] → finds r [act] = [] →
      (∀ rest, rtold r (new.map (·.ev) ++ rest) = rtold r rest) →
      (s1.runs r).startup = (s.runs r).startup ∧ (s1.runs r).phase ≠ .notStarted ∧
      ∃ new, s1.log = s.log ++ new ∧ RView r s act s1 new := fun new h1 h2 h3 h4 h5 =>
    ⟨by rw [h2], by rwa [h2], new, h1, .other (by rw [h2]) h3 h4 h5⟩
  cases hs with
  | tick => exact other [] (by simp) rfl rfl rfl (fun _ => rfl)
  | enqueue => exact other _ rfl rfl rfl rfl (fun _ => rfl)
  | @start r' hp =>
    have hne : r ≠ r' := fun h => hr (h ▸ hp)
    exact other _ rfl (by simp [St.note, upd_ne _ _ hne]) rfl rfl (fun _ => rfl)
  | @list r' m hp hm =>
    by_cases hrr : r' = r
    · subst hrr
      exact ⟨rfl, hr, _, by simp only [spawn_log, note_log, List.append_assoc]; rfl, .list hp hp (fun rest => by simp [rtold, St.note])⟩
    · exact other _ (by simp only [spawn_log, note_log, List.append_assoc]; rfl) rfl (by simp [lists, hrr]) rfl
        (fun rest => by simp [rtold, St.note, hrr])
  | @find r' c τ hp hm =>
    by_cases hrr : r' = r
    · subst hrr
      exact ⟨rfl, hr, _, by simp only [spawn_log, note_log, List.append_assoc]; rfl, .find hp hp (fun rest => by simp [rtold, St.note])⟩
    · exact other _ (by simp only [spawn_log, note_log, List.append_assoc]; rfl) rfl rfl (by simp [finds, hrr])
        (fun rest => by simp [rtold, St.note, hrr])
  | @listEnd r' hp =>
    by_cases hrr : r' = r
    · subst hrr
      exact ⟨by simp [St.note], by simp [St.note], _, rfl, .listEnd hp (by simp [St.note]) (fun rest => by simp [rtold])⟩
    · exact other _ rfl (by simp [St.note, upd_ne _ _ (Ne.symm hrr)]) (by simp [lists, hrr]) rfl (fun rest => by simp [rtold, hrr])
  | @listFail r' hp =>
    by_cases hrr : r' = r
    · subst hrr
      exact ⟨by simp [St.note], by simp [St.note], _, rfl, .listFail hp (by simp [St.note]) (fun rest => by simp [rtold])⟩
    · exact other _ rfl (by simp [St.note, upd_ne _ _ (Ne.symm hrr)]) (by simp [lists, hrr]) rfl (fun rest => by simp [rtold, hrr])
  | @findEnd r' hp =>
    by_cases hrr : r' = r
    · subst hrr
      exact ⟨by simp [St.note], by simp [St.note], _, rfl, .findEnd hp (by simp [St.note]) (fun rest => by simp [rtold])⟩
    · exact other _ rfl (by simp [St.note, upd_ne _ _ (Ne.symm hrr)]) rfl (by simp [finds, hrr]) (fun rest => by simp [rtold, hrr])
  | @findFail r' hp =>
    by_cases hrr : r' = r
    · subst hrr
      exact ⟨by simp [St.note], by simp [St.note], _, rfl, .findFail hp (by simp [St.note]) (fun rest => by simp [rtold])⟩
    · exact other _ rfl (by simp [St.note, upd_ne _ _ (Ne.symm hrr)]) rfl (by simp [finds, hrr]) (fun rest => by simp [rtold, hrr])
  | @answer tid r' o a eff s2 ht he =>
    exact other _ (by rw [note_log, (Effect.quiet he).2.2]) (by simp [St.note, Effect.runs he]) rfl rfl (fun _ => rfl)
  | finish => exact other _ rfl rfl rfl rfl (fun _ => rfl)
  | goOn => exact other _ rfl rfl rfl rfl (fun _ => rfl)
  | spawn => exact other _ (by simp only [spawn_log, note_log, List.append_assoc]; rfl) rfl rfl rfl (fun _ => rfl)
  | @crash r' hp =>
    by_cases hrr : r' = r
    · subst hrr
      exact ⟨by simp [St.note], by simp [St.note], _, rfl, .crash⟩
    · exact other _ rfl (by simp [St.note, upd_ne _ _ (Ne.symm hrr)]) rfl rfl (fun _ => rfl)
  | die => exact other _ rfl rfl rfl rfl (fun _ => rfl)

/-- The phase of the transition system. -/
def PhaseIs : ROut → Phase → Prop
  | .notReady f, .listing => f = .first none
  | .notReady f, .finding => f = .second none
  | .ready, .finished => True
  | .err, .failed => True
  | _, _ => False

/-- What is left to be seen of a run. -/
def RLeft (t : Nat) (ph : Phase) (as : List (SAns MailId)) (bs : List (SAns Claim)) (es : List REv) (ph' : Phase) : Prop :=
  match ph with
  | .listing => es = rseen ((RunFut.first none).poll t as bs).1 ∧ PhaseIs ((RunFut.first none).poll t as bs).2 ph'
  | .finding => as = [] ∧ es = rseen ((RunFut.second none).poll t as bs).1 ∧ PhaseIs ((RunFut.second none).poll t as bs).2 ph'
  | .finished => as = [] ∧ bs = [] ∧ es = [] ∧ ph' = .finished
  | .failed => as = [] ∧ bs = [] ∧ es = [] ∧ ph' = .failed
  | _ => True

theorem exec_rview {r t : Nat} (acts : List Act) : ∀ {s s' : St}, exec s acts = some s' → .crash r ∉ acts →
    (s.runs r).phase ≠ .notStarted → (s.runs r).startup = t →
    ∃ new, s'.log = s.log ++ new ∧
      RLeft t (s.runs r).phase (lists r acts) (finds r acts) (rtold r (new.map (·.ev))) (s'.runs r).phase := by
  induction acts with
  | nil =>
    intro s s' he _ _ ht
    cases he
    refine ⟨[], by simp, ?_⟩
    rcases hp : (s.runs r).phase <;> simp [RLeft, lists, finds, rtold, PhaseIs, RunFut.poll, RunFut.pollSecond, ForEach.poll, ForEach.inner, rseen]
  | cons act acts ih =>
    intro s s' he hc hns ht
    rw [exec] at he
    split at he
    · rename_i s1 hs1
      obtain ⟨hst, hns1, new1, hl1, hv⟩ := step_rview hs1 hns
      obtain ⟨new, hl, hleft⟩ := ih he (fun h => hc (by simp [h])) hns1 (hst.trans ht)
      have hla : lists r (act :: acts) = lists r [act] ++ lists r acts := by
        simp [lists, List.filterMap_cons]; split <;> simp
      have hfa : finds r (act :: acts) = finds r [act] ++ finds r acts := by
        simp [finds, List.filterMap_cons]; split <;> simp
      refine ⟨new1 ++ new, by rw [hl, hl1, List.append_assoc], ?_⟩
      rw [List.map_append, hla, hfa]
      cases hv with
      | other h1 h2 h3 h4 => rw [h4, h2, h3, List.nil_append, List.nil_append, ← h1]; exact hleft
      | @list m _ _ h1 h2 h3 =>
        rw [h3, h1]
        rw [h2] at hleft
        obtain ⟨l1, l2⟩ := hleft
        simp only [RLeft, lists, finds, List.filterMap_cons, List.filterMap_nil, if_true, List.cons_append, List.nil_append, first_item] at l1 l2 ⊢
        exact ⟨by rw [l1]; rfl, l2⟩
      | listEnd h1 h2 h3 =>
        rw [h3, h1]
        rw [h2] at hleft
        obtain ⟨l0, l1, l2⟩ := hleft
        rw [l0] at l1 l2 ⊢
        simp only [RLeft, lists, finds, List.filterMap_cons, List.filterMap_nil, if_true, List.cons_append, List.nil_append] at l1 l2 ⊢
        exact ⟨by rw [l1]; rfl, l2⟩
      | listFail h1 h2 h3 =>
        rw [h3, h1]
        rw [h2] at hleft
        obtain ⟨l0, l0', l1, l2⟩ := hleft
        rw [l0, l0', l1, l2]
        simp [RLeft, lists, finds, RunFut.poll, ForEach.poll, ForEach.inner, rseen, PhaseIs]
      | find h1 h2 h3 =>
        rw [h3, h1]
        rw [h2] at hleft
        obtain ⟨l0, l1, l2⟩ := hleft
        simp only [RLeft, lists, finds, List.filterMap_cons, List.filterMap_nil, if_true, List.cons_append, List.nil_append, second_item] at l0 l1 l2 ⊢
        exact ⟨l0, by rw [l1, ht]; rfl, l2⟩
      | findEnd h1 h2 h3 =>
        rw [h3, h1]
        rw [h2] at hleft
        obtain ⟨l0, l0', l1, l2⟩ := hleft
        rw [l0, l0', l1, l2]
        simp [RLeft, lists, finds, RunFut.poll, RunFut.pollSecond, ForEach.poll, ForEach.inner, rseen, PhaseIs]
      | findFail h1 h2 h3 =>
        rw [h3, h1]
        rw [h2] at hleft
        obtain ⟨l0, l0', l1, l2⟩ := hleft
        rw [l0, l0', l1, l2]
        simp [RLeft, lists, finds, RunFut.poll, RunFut.pollSecond, ForEach.poll, ForEach.inner, rseen, PhaseIs]
      | crash => exact absurd (by simp) hc
    · simp at he

end Verif.QFut
