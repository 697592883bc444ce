import Verif.Proofs.TaskWork
import Verif.Proofs.Lockstep
import Verif.Props.SessionExamples
/-
C116: how much work a whole session is.
-/
namespace Verif
open Spec Server Verif.Task TaskWork Ex
variable {L : IpLib} {S U : Type}

theorem TaskWork.init_reader (C : Config L S U) (incoming : List (SrcEv Bytes)) (outgoing : BSink) (s : S) (u : U) :
    left (init C incoming outgoing s u) ≤ (evBytes incoming).length ∧
    rounds (init C incoming outgoing s u) ≤ 2 * packets incoming ∧
    toDecode (init C incoming outgoing s u) ≤ (evBytes incoming).length + packets incoming ∧
    (InLines incoming → AllWhole (init C incoming outgoing s u)) := by
  refine ⟨left_reply _ _ _, rounds_reply _ _ _, toDecode_reply _ _ _, fun h => allWhole_reply _ _ _ ⟨h, ?_⟩⟩
  simp [start, Prep.new]

theorem TaskWork.spent_zero (C : Config L S U) (n : Nat) (x : State L S U) : spent C (fun _ => 0) n x = 0 := by
  induction n generalizing x with
  | zero => rfl
  | succ n ih => rw [spent, ih]

/-- C116. All that a session looks at, at any moment of it, whatever configuration, client and writer do: parsing is linear in the bytes
of the client; decoding messages, in the bytes, the packets, and the polls of the mail handlers; the search for the ends of lines costs at
most all bytes at every packet, twice. -/
theorem c116_session (C : Config L S U) (incoming : List (SrcEv Bytes)) (outgoing : BSink) (s : S) (u : U) (n : Nat) :
    spent C parseWork n (init C incoming outgoing s u) ≤ 271 * (evBytes incoming).length ∧
    spent C decodeWork n (init C incoming outgoing s u) ≤
      (evBytes incoming).length + packets incoming + spent C pollCount n (init C incoming outgoing s u) ∧
    spent C searchWork n (init C incoming outgoing s u) ≤ (2 * packets incoming + 1) * (evBytes incoming).length := by
  obtain ⟨h1, h2, h3, _⟩ := init_reader C incoming outgoing s u
  refine ⟨?_, ?_, ?_⟩
  · have := spent_le (C := C) (f := parseWork) (g := fun _ => 0) (phi := fun x => 271 * left x) (P := fun _ => True)
      (fun _ _ => trivial) (fun x _ => parse_step x) n (init C incoming outgoing s u) trivial
    rw [spent_zero] at this
    omega
  · have := spent_le (C := C) (f := decodeWork) (g := pollCount) (phi := toDecode) (P := fun _ => True)
      (fun _ _ => trivial) (fun x _ => decode_step x) n (init C incoming outgoing s u) trivial
    omega
  · have := spent_le (C := C) (f := searchWork) (g := fun _ => 0)
      (phi := fun x => left x + rounds x * (evBytes incoming).length) (P := fun x => left x ≤ (evBytes incoming).length)
      (fun x hx => Nat.le_trans (left_step x) hx) (fun x hx => search_step _ x hx) n (init C incoming outgoing s u) h1
    rw [spent_zero] at this
    have h4 := Nat.mul_le_mul_right (evBytes incoming).length h2
    rw [Nat.add_mul]
    omega

/-- C116. A client whose packets end where its lines end is searched once: then the session is linear. -/
theorem c116_lines (C : Config L S U) (incoming : List (SrcEv Bytes)) (hi : InLines incoming) (outgoing : BSink) (s : S) (u : U) (n : Nat) :
    spent C searchWork n (init C incoming outgoing s u) ≤ (evBytes incoming).length := by
  obtain ⟨h1, _, _, h4⟩ := init_reader C incoming outgoing s u
  have := spent_le (C := C) (f := searchWork) (g := fun _ => 0) (phi := left) (P := AllWhole)
    (fun x hx => allWhole_step x hx) (fun x hx => whole_search x hx) n (init C incoming outgoing s u) (h4 hi)
  rw [spent_zero] at this
  omega

/-- C116. What is parsed are the lines that were read, each once. -/
theorem c116_parsed (C : Config L S U) (incoming : List (SrcEv Bytes)) (outgoing : BSink) (s : S) (u : U) (n : Nat) :
    spent C parseWork n (init C incoming outgoing s u) =
      ((linesRead (after C incoming outgoing s u n).2.trace).map fun l =>
        (ParseWork.commandParse l : Nat × Except ParseErr (Command L)).1).sum := by
  have key : ∀ n x, parsed (steps C n x).2.trace = parsed x.2.trace + spent C parseWork n x := by
    intro n
    induction n with
    | zero => intro x; rfl
    | succ n ih => intro x; rw [steps, ih, parsed_step, spent]; omega
  have := key n (init C incoming outgoing s u)
  rw [show parsed (init C incoming outgoing s u).2.trace = 0 from rfl, Nat.zero_add] at this
  exact this.symm

theorem TaskWork.crumbs_read (C : Config L S U) (n k : Nat) (w : World L S U)
    (hw : w.reader = ⟨List.replicate n (.pkt [65]), none, w.reader.ends⟩) :
    2 * spent C searchWork n (.read (List.replicate k 65), w) = n * (2 * k) + n * (n - 1) := by
  induction n generalizing k w with
  | zero => simp [spent]
  | succ n ih =>
    have hn : findCrlf (List.replicate (k + 1) (65 : UInt8)) = none := by
      refine findCrlf_none (noCr_noCrlf fun c hc => ?_)
      rw [List.mem_replicate] at hc; rw [hc.2]; decide
    have e : List.replicate k (65 : UInt8) ++ [65] = List.replicate (k + 1) 65 := List.replicate_succ'.symm
    have hp : w.reader.pollNext = (.ready (some [65]), ⟨List.replicate n (.pkt [65]), none, w.reader.ends⟩) := by
      rw [hw]; simp [Prep.pollNext, List.replicate_succ]
    have hs : Task.step C (.read (List.replicate k 65), w) = (.read (List.replicate (k + 1) 65),
        { w with reader := ⟨List.replicate n (.pkt [65]), none, w.reader.ends⟩ }) := by
      simp only [Task.step, hp, e, hn]
    have hc : searchWork ((.read (List.replicate k 65), w) : State L S U) = k := by
      simp only [searchWork, hp, e, findCrlfWork, hn]
      simp
    have := ih (k + 1) { w with reader := ⟨List.replicate n (.pkt [65]), none, w.reader.ends⟩ } rfl
    rw [spent, hs, hc, Nat.mul_add, this]
    cases n with
    | zero => simp
    | succ m => simp [Nat.add_mul, Nat.mul_add]; omega

/-- C116. And a client that sends bytes one by one makes any server pay the square: whatever the configuration is, if its greeting can
be sent and the writer does not fail. -/
theorem c116_quadratic (C : Config L S U) (s : S) (u : U) (h : Sendable (C.welcomeBanner s)) (n : Nat) :
    ∃ m, n * (n - 1) ≤ 2 * spent C searchWork m (init C (List.replicate n (.pkt [65])) ⟨[], []⟩ s u) := by
  obtain ⟨k, _, hk⟩ := send_reply (C := C) (C.welcomeBanner s) .next (start (L := L) (List.replicate n (.pkt [65])) ⟨[], []⟩ s u)
  obtain ⟨wr, e, _⟩ := Server.send_ok (L := L) h (w := start (List.replicate n (.pkt [65])) ⟨[], []⟩ s u) (by simp [start])
  rw [e] at hk
  simp only [land, resume] at hk
  have add : ∀ a b x, spent C searchWork (a + b) x = spent C searchWork a x + spent C searchWork b (steps C a x) := by
    intro a
    induction a with
    | zero => intro b x; simp [spent, steps]
    | succ a ih => intro b x; rw [show a + 1 + b = (a + b) + 1 by omega, spent, spent, ih, steps]; omega
  refine ⟨k + n, ?_⟩
  rw [add, show init C (List.replicate n (.pkt [65])) ⟨[], []⟩ s u = (reply (C.welcomeBanner s) .next, start _ _ s u) from rfl, hk]
  have := crumbs_read C n 0 (w := { (start (List.replicate n (.pkt [65])) ⟨[], []⟩ s u : World L S U) with
    writer := wr, trace := (start (List.replicate n (.pkt [65])) ⟨[], []⟩ s u : World L S U).trace ++ [.reply (C.welcomeBanner s)] }) rfl
  simp only [List.replicate_zero] at this
  omega

/-- What a session of the examples has cost after `n` steps. -/
def Ex.bill (incoming : List (SrcEv Bytes)) (n : Nat) : Nat × Nat × Nat × Nat :=
  let x := init exampleConfig incoming ⟨[], []⟩ () ()
  (spent exampleConfig parseWork n x, spent exampleConfig decodeWork n x, spent exampleConfig pollCount n x,
    spent exampleConfig searchWork n x)

/-- C116: the session of the examples, 68 bytes, in one packet (whose end is the end of a line), and byte by byte: the searches cost 56,
which is less than the bytes, and 407. The bounds for one packet are 271·68, 68 + 1 + 2, and 3·68; nothing is left to do after a thousand steps. -/
theorem c116_example :
    exampleInput.length = 68 ∧ Ex.bill [.pkt exampleInput] 1000 = (301, 6, 2, 56) ∧
    Ex.bill (exampleInput.map fun c => .pkt [c]) 1000 = (301, 13, 5, 407) ∧ InLines [.pkt exampleInput] ∧
    (after exampleConfig (exampleInput.map fun c => .pkt [c]) ⟨[], []⟩ () () 1000).1 matches .over (.ok _) := by
  refine ⟨by decide +kernel, by decide +kernel, by decide +kernel, ?_, by decide +kernel⟩
  intro b hb
  have : b = exampleInput := by simpa using hb
  subst this
  exact .inr ⟨exampleInput.take 66, by decide +kernel⟩

end Verif
