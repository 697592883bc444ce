import Verif.Spec.Queue

/-! # Specification: tasks that die alone (C122) -/

namespace Verif.Queue

/-- The task an entry of the record is about: the one that called, was answered, spawned another one, ended or died. -/
def Ev.by : Ev → Option Nat
  | .call _ i _ => some i
  | .answer _ i _ _ => some i
  | .spawned _ i _ => some i
  | .ended _ i => some i
  | .died _ i _ => some i
  | _ => none

/-- The states that can come after `s` by actions that satisfy `P`. -/
inductive Later (P : St → Act → Prop) (s : St) : St → Prop
  | refl : Later P s s
  | step {s1 s2 : St} {act : Act} : Later P s s1 → P s1 act → step s1 act = some s2 → Later P s s2

/-- An instance of `run` called `cancel_found_inflight` for `c`, which `find_inflight` had yielded to it, 3600 seconds or more
after its start, and it has been answered. -/
def Recovered (log : List Entry) (c : Claim) : Prop :=
  ∃ r j a t0 t1, HasAt log t0 (.started r) ∧ Has log (.found r c) ∧ HasAt log t1 (.call r j (.cancelFound c)) ∧
    t0 + 3600 ≤ t1 ∧ Has log (.answer r j (.cancelFound c) a)

end Verif.Queue
