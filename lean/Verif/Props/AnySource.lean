import Verif.Proofs.AnySource
import Verif.Props.Task
import Verif.Model.TestConfig
/-
C121: connections that never end, or do not stay at their end.
-/
namespace Verif
open Spec AnySource
variable {L : IpLib} {S U : Type}

/-- C121. Over a connection that has not reported its end in its first `k` polls, whatever it will do later, a session that has
polled it no more than `k` times is at a point of the session over the list of these `k` answers, followed by anything. -/
theorem c121_open (C : Config L S U) (f : Source) (k : Nat) (ho : OpenFor f k) (rest : List (SrcEv Bytes)) (outgoing : BSink)
    (s : S) (u : U) (n : Nat) (hk : pollsOf (after C f outgoing s u n) ≤ k) :
    ∃ m, m ≤ n ∧ SamePoint (after C f outgoing s u n) (Task.after C (heard f 0 k ++ rest) outgoing s u m) := by
  obtain ⟨m, hm, h⟩ := rel_after (rest := rest) ho C outgoing s u n (.inl hk)
  exact ⟨m, hm, h.same⟩

/-- C121. Over a connection that ends, the session is at a point of the session over the list of its answers, until it has polled the
connection once more after its end, and for ever if the connection stays at its end. -/
theorem c121_ended (C : Config L S U) (f : Source) (N : Nat) (he : EndsAt f N) (outgoing : BSink) (s : S) (u : U) (n : Nat)
    (hk : ∀ i, N < i → i < pollsOf (after C f outgoing s u n) → f i = .ready none) :
    ∃ m, m ≤ n ∧ SamePoint (after C f outgoing s u n) (Task.after C (heard f 0 N) outgoing s u m) := by
  obtain ⟨m, hm, h⟩ := rel_after (rest := []) he.1 C outgoing s u n (.inr ⟨rfl, fun i h1 h2 => by
    rcases Nat.lt_or_ge N i with h | h
    · exact hk i h h2
    · rw [show i = N by omega]; exact he.2⟩)
  rw [List.append_nil] at h
  exact ⟨m, hm, h.same⟩

/-- C121. The session over a connection that is a list, in which each step polls the connection at most once, goes through the points
of the session over the list, and through all of them. -/
theorem c121_list (C : Config L S U) (evs : List (SrcEv Bytes)) (outgoing : BSink) (s : S) (u : U) :
    (∀ n, ∃ m, m ≤ n ∧ SamePoint (after C (ofList evs) outgoing s u n) (Task.after C evs outgoing s u m)) ∧
    (∀ m, ∃ n, SamePoint (after C (ofList evs) outgoing s u n) (Task.after C evs outgoing s u m)) := by
  have hl : ∀ k, Like (ofList evs) evs.length [] k := fun k => .inr ⟨rfl, fun i hi _ => ofList_end evs hi⟩
  refine ⟨fun n => ?_, fun m => ?_⟩
  · obtain ⟨m, hm, h⟩ := rel_after (ofList_open evs) C outgoing s u n (hl _)
    rw [List.append_nil, ofList_heard] at h
    exact ⟨m, hm, h.same⟩
  · obtain ⟨n, h⟩ := every_point (ofList_open evs) hl C outgoing s u m
    rw [List.append_nil, ofList_heard] at h
    exact ⟨n, h.same⟩

/-- C121. What the session does depends on nothing but the answers it got. -/
theorem c121_past (C : Config L S U) (f g : Source) (k : Nat) (hfg : ∀ i, i < k → f i = g i) (outgoing : BSink) (s : S) (u : U)
    (n : Nat) (hk : pollsOf (after C f outgoing s u n) ≤ k) : after C f outgoing s u n = after C g outgoing s u n :=
  after_agree hfg C outgoing s u n hk

/-- C121. No step polls the connection more than once, and polls are never taken back. -/
theorem c121_polls (C : Config L S U) (f : Source) (outgoing : BSink) (s : S) (u : U) (n : Nat) :
    pollsOf (after C f outgoing s u 0) = 0 ∧ pollsOf (after C f outgoing s u n) ≤ pollsOf (after C f outgoing s u (n + 1)) ∧
    pollsOf (after C f outgoing s u (n + 1)) ≤ pollsOf (after C f outgoing s u n) + 1 :=
  ⟨rfl, step_polls C f _⟩

/-- C121. When the session hears of the end of the connection, at poll number `N`, it is either waiting for a command line, and is
over then, for good, so that the connection is not polled again; or the handler of a message is reading from its stream, which tells
it that there is no more. -/
theorem c121_end (C : Config L S U) (f : Source) (N : Nat) (he : f N = .ready none) (outgoing : BSink) (s : S) (u : U) (n : Nat)
    (hn : N < pollsOf (after C f outgoing s u n)) :
    ∃ n', n' < n ∧ pollsOf (after C f outgoing s u n') = N ∧
      ((∃ b, (after C f outgoing s u n').pc = .plain (.read b) ∧ (after C f outgoing s u n).pc = .plain (.over (.ok ())) ∧
          pollsOf (after C f outgoing s u n) = N + 1) ∨
        ∃ act h d e, (after C f outgoing s u n').pc = .polling act h d ∧
          (after C f outgoing s u (n' + 1)).pc = .handle act (h ++ [.polled (.ready none)]) e ∧ e.state = .earlyFin) := by
  obtain ⟨n', h1, h2, h3⟩ := crossing C f outgoing s u hn
  refine ⟨n', h1, h2, ?_⟩
  rcases step_end (C := C) (f := f) (x := after C f outgoing s u n') (by rw [h2]; exact he)
    (by show pollsOf (after C f outgoing s u (n' + 1)) ≠ _; omega) with ⟨b, h4, h5⟩ | ⟨act, h, d, e, h4, h5, h6, -⟩
  · left
    have h7 := over_after (n := n' + 1) h5 (n - (n' + 1))
    rw [show n' + 1 + (n - (n' + 1)) = n by omega] at h7
    exact ⟨b, h4, by rw [h7]; exact h5, by rw [h7]; exact h3⟩
  · right
    exact ⟨act, h, d, e, h4, h5, h6⟩

/-- C121. The connection is polled again after it has reported its end only if the end came while a message was being read. -/
theorem c121_again (C : Config L S U) (f : Source) (N : Nat) (he : f N = .ready none) (outgoing : BSink) (s : S) (u : U) (n : Nat)
    (hn : N + 1 < pollsOf (after C f outgoing s u n)) :
    ∃ n', n' < n ∧ pollsOf (after C f outgoing s u n') = N ∧ ∃ act h d, (after C f outgoing s u n').pc = .polling act h d := by
  obtain ⟨n', h1, h2, ⟨b, -, -, h3⟩ | ⟨act, h, d, -, h3, -⟩⟩ := c121_end C f N he outgoing s u n (by omega)
  · omega
  · exact ⟨n', h1, h2, act, h, d, h3⟩

/-- C121. A session is over without an error only if the connection has reported its end, in its last poll. -/
theorem c121_ok (C : Config L S U) (f : Source) (outgoing : BSink) (s : S) (u : U) (n : Nat)
    (hn : (after C f outgoing s u n).pc = .plain (.over (.ok ()))) :
    ∃ N, pollsOf (after C f outgoing s u n) = N + 1 ∧ f N = .ready none := by
  induction n with
  | zero => exact absurd (by simpa [after, init, Task.init] using hn) (reply_not_over (C.welcomeBanner s) .next)
  | succ n ih =>
    rcases step_ok (C := C) (f := f) (x := after C f outgoing s u n) hn with h | ⟨h1, h2⟩
    · have h' : after C f outgoing s u (n + 1) = after C f outgoing s u n := h
      rw [h'] at hn ⊢
      exact ih hn
    · exact ⟨_, h2, h1⟩

/-- C121. If the connection never ends, and sends nothing but empty packets from some poll on, a message of which all that came was
handed out is never given back to its handler: the stream polls the connection for ever, without an answer in between. -/
theorem c121_starved (C : Config L S U) (f : Source) (outgoing : BSink) (s : S) (u : U) (n : Nat)
    (act : List HObs → HAct S U) (h : List HObs) (d : DS) (hpc : (after C f outgoing s u n).pc = .polling act h d)
    (hbuf : d.buf = []) (hpre : d.reader.pre = none) (hf : ∀ i, d.reader.polls ≤ i → f i = .ready (some [])) (j : Nat) :
    (after C f outgoing s u (n + j)).pc = .polling act h { d with reader := ⟨d.reader.polls + j, none⟩ } ∧
    (after C f outgoing s u (n + j)).world = (after C f outgoing s u n).world := by
  obtain ⟨⟨k, pre⟩, st, buf⟩ := d
  dsimp only at hbuf hpre hf
  subst hbuf hpre
  induction j with
  | zero => exact ⟨hpc, rfl⟩
  | succ j ih =>
    obtain ⟨h1, h2⟩ := ih
    rcases hx : after C f outgoing s u (n + j) with ⟨pc, r, w⟩
    rw [hx] at h1 h2
    dsimp only at h1 h2
    subst h1
    have : after C f outgoing s u (n + (j + 1)) = step C f (after C f outgoing s u (n + j)) := rfl
    rw [this, hx, starve (hf _ (by omega))]
    exact ⟨rfl, h2⟩

/-- An endless connection: a client which says NOOP for ever. -/
def chatter : Source := fun i => if i % 2 = 0 then .ready (some b!"NOOP\r\n") else .pending

/-- C121: its session gets on. -/
theorem c121_example_endless : (∀ k, OpenFor chatter k) ∧
    (Spec.repliesOf (after exampleConfig chatter ⟨[], []⟩ () () 20).world.trace).length = 5 := by
  refine ⟨fun k i _ => ?_, by decide +kernel⟩
  unfold chatter
  split <;> simp

/-- A connection that sends empty packets for ever. -/
def silence : Source := fun _ => .ready (some [])

/-- C121: its session reads on, at any time, and does nothing else. -/
theorem c121_example_silence (n : Nat) : after exampleConfig silence ⟨[], []⟩ () () (n + 2) =
    ⟨.plain (.read []), ⟨n, none⟩, (after exampleConfig silence ⟨[], []⟩ () () 2).world⟩ := by
  induction n with
  | zero =>
    have h1 : (after exampleConfig silence ⟨[], []⟩ () () 2).pc matches .plain (.read []) := by decide +kernel
    have h2 : (after exampleConfig silence ⟨[], []⟩ () () 2).reader.polls = 0 := by decide +kernel
    have h3 : (after exampleConfig silence ⟨[], []⟩ () () 2).reader.pre = none := by decide +kernel
    show after exampleConfig silence ⟨[], []⟩ () () 2 = _
    revert h1 h2 h3
    rcases after exampleConfig silence ⟨[], []⟩ () () 2 with ⟨pc, ⟨k, pre⟩, w⟩
    dsimp only
    intro h1 h2 h3
    subst h2 h3
    rcases pc with (b | _ | _ | _ | _ | _ | _ | _) | _ | _ <;> first | (cases b <;> first | rfl | cases h1) | cases h1
  | succ n ih =>
    show step exampleConfig silence (after exampleConfig silence ⟨[], []⟩ () () (n + 2)) = _
    rw [ih]
    rfl

/-- The beginning of a message, and then empty packets. -/
def stalled : Source := fun i => .ready (some (if i = 0 then b!"MAIL FROM:<a@b.c>\r\nRCPT TO:<d@e.f>\r\nDATA\r\nhi" else []))

/-- C121: the stream of this message, once it has handed out `hi`, polls for ever. -/
theorem c121_example_starved : ∃ act h d, (after exampleConfig stalled ⟨[], []⟩ () () 19).pc = .polling act h d ∧
    d.buf = [] ∧ d.reader.pre = none ∧ (∀ i, d.reader.polls ≤ i → stalled i = .ready (some [])) := by
  have h1 : (match (after exampleConfig stalled ⟨[], []⟩ () () 19).pc with
      | .polling _ _ d => decide (d.buf = [] ∧ d.reader.pre = none ∧ d.reader.polls = 1)
      | _ => false) = true := by decide +kernel
  revert h1
  rcases (after exampleConfig stalled ⟨[], []⟩ () () 19).pc with _ | _ | ⟨act, h, d⟩ <;> intro h1
  · cases h1
  · cases h1
  · simp only [decide_eq_true_eq] at h1
    refine ⟨act, h, d, rfl, h1.1, h1.2.1, fun i hi => ?_⟩
    unfold stalled
    rw [if_neg (by omega)]

/-- A connection that reports its end inside a message, and goes on after that. -/
def revenant : Source := fun i =>
  match i with
  | 0 => .ready (some b!"MAIL FROM:<a@b.c>\r\nRCPT TO:<d@e.f>\r\nDATA\r\nhi")
  | 1 => .ready none
  | 2 => .ready (some b!"\r\n.\r\nMAIL FROM:<>\r\n")
  | _ => .ready none

/-- C121: the session goes on as well, and takes what follows for commands. -/
theorem c121_example_revenant : EndsAt revenant 1 ∧
    (after exampleConfig revenant ⟨[], []⟩ () () 37).pc matches .plain (.over (.ok ())) ∧
    pollsOf (after exampleConfig revenant ⟨[], []⟩ () () 37) = 4 ∧
    (repliesOf (after exampleConfig revenant ⟨[], []⟩ () () 37).world.trace).map (·.1.code) =
      [220, 250, 250, 354, 451, 500, 500, 250] := by
  refine ⟨⟨fun i hi => ?_, rfl⟩, by decide +kernel⟩
  rw [show i = 0 by omega]
  simp [revenant]

end Verif
