import Verif.Spec.SinkPoll
/-
How often the future of a session answers `Pending`.

A step of Model/SinkPoll.lean polls the operation that is awaited. If that answers `Pending`, so does the session; if not, the session
goes on to the next `.await` in the same poll. (Callbacks other than `handle_mail` do not answer `Pending` in the model.)
-/
namespace Verif.Spec
variable {σ : Type} {L : IpLib} {S U : Type}

/-- The stream the session reads from: while a mail is handled it is lent to the `DataStream`. -/
def connectionOf (x : Live L S U σ) : Prep Bytes :=
  match x.pc with
  | .handle _ _ d => d.source
  | _ => x.w.reader

/-- The operation that is awaited answers `Pending` if it is polled now, and so does the session. -/
def Suspends (R : RawSink σ) (x : Live L S U σ) : Prop :=
  match x.pc with
  | .read _ => x.w.reader.pollNext.1 = .pending
  | .send r left _ => (SendAll.poll R r.1 ⟨x.buffered, left, x.writer⟩).1 = .pending
  | .handle act h d => act h = .poll ∧ d.pollNext.1 = .pending
  | _ => False

open Classical in
/-- How often the session answered `Pending` in its first `n` steps. Whoever polls it has polled it once more often than that. -/
noncomputable def suspensions (R : RawSink σ) (C : Config L S U) (incoming : List (SrcEv Bytes)) (st : σ) (s : S) (u : U) : Nat → Nat
  | 0 => 0
  | n + 1 => suspensions R C incoming st s u n + (if Suspends R (Live.after R C incoming st s u n) then 1 else 0)

/-- How often a connection will answer `Pending`. -/
def pendingsIn (src : List (SrcEv Bytes)) : Nat := src.countP (fun e => e = .pending)

/-- How often a sink has answered `Pending`. -/
def pendingsOut (log : List Call) : Nat := log.countP (fun c => c = .ready .pending ∨ c = .flush .pending)

end Verif.Spec
