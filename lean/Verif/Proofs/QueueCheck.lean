import Verif.Proofs.Queue
/-
Executions that can be computed: conditions on executions as functions to `Bool`, used to give concrete executions.
-/
namespace Verif.Queue

/-- The claim a task works with. -/
def Task.working (t : Task) : Option Claim :=
  match t.op, t.ans with
  | .sendStart _, some (.inflight c) => some c
  | .getMail c, a => if a = some .err then none else some c
  | .transportSend c _, _ => some c
  | .sendDone c, none => some c
  | .sendCancel c, none => some c
  | _, _ => none

theorem WorksOn.working {t : Task} {c : Claim} (h : WorksOn t c) : t.working = some c := by
  cases h with
  | fetching h => simp [Task.working, h]
  | _ => rfl

def gentleB (s : St) : Act → Bool
  | .answer tid _ _ => match s.task tid with
    | some ⟨_, .cancelFound c, none⟩ =>
      (List.range s.tids).all fun i => match s.task i with
        | some t => t.working != some c
        | none => true
    | _ => true
  | _ => true

theorem gentleB_sound {s : St} (hb : Basic s) {act : Act} (h : gentleB s act = true) : Gentle s act := by
  rintro tid a eff r c rfl hne ht i t hi hw
  simp only [gentleB, ht, List.all_eq_true, List.mem_range] at h
  have := h i (hb.task i t hi).tid
  rw [hi] at this
  simp [hw.working] at this

def noFailureB (s : St) : Act → Bool
  | .crash _ => false
  | .die _ => false
  | .answer tid .err _ => match s.task tid with
    | some ⟨_, .transportSend _ _, none⟩ => true
    | _ => false
  | _ => true

theorem noFailureB_sound {s : St} {act : Act} (h : noFailureB s act = true) : NoFailure s act := by
  refine ⟨?_, ?_, ?_⟩
  · rintro r rfl; simp [noFailureB] at h
  · rintro i rfl; simp [noFailureB] at h
  · rintro i eff r o rfl ht
    simp only [noFailureB, ht] at h
    split at h
    · rename_i h1; cases h1; exact ⟨_, _, rfl⟩
    · cases h

def timelyB (A F : Nat) (s : St) (act : Act) : Bool :=
  (List.range s.tids).all (fun i => match s.task i with
    | some t => s.claims.all fun x => t.working != some x.1 || decide (s.now < x.2 + A)
    | none => true) &&
  match act with
  | .find r _ => decide (s.now ≤ (s.runs r).startup + F)
  | _ => true

theorem timelyB_sound {A F : Nat} {s : St} (hb : Basic s) {act : Act} (h : timelyB A F s act = true) : Timely A F s act := by
  simp only [timelyB, Bool.and_eq_true, List.all_eq_true, List.mem_range] at h
  constructor
  · intro i t c τ hi hw hm
    have := h.1 i (hb.task i t hi).tid
    rw [hi] at this
    simp only [List.all_eq_true, Bool.or_eq_true, decide_eq_true_eq] at this
    rcases this _ hm with h1 | h1
    · simp [hw.working] at h1
    · exact h1
  · rintro r c rfl
    simpa using h.2

/-- Several actions in a row that satisfy a condition. -/
def execB (P : St → Act → Bool) (s : St) : List Act → Option St
  | [] => some s
  | a :: as => if P s a then (match step s a with | some s' => execB P s' as | none => none) else none

theorem execB_reach {B : St → Act → Bool} {P : St → Act → Prop} (hB : ∀ s, Basic s → ∀ a, B s a = true → P s a)
    {s s' : St} {as : List Act} (hr : Reach P s) (h : execB B s as = some s') : Reach P s' := by
  induction as generalizing s with
  | nil => simp [execB] at h; exact h ▸ hr
  | cons a as ih =>
    unfold execB at h
    split at h
    · split at h
      · exact ih (.step hr (hB _ hr.basic _ ‹_›) ‹_›) h
      · simp at h
    · simp at h

end Verif.Queue
