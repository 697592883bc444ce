import Verif.Model.DataSinkPoll
import Verif.Proofs.SinkPoll
import Verif.Proofs.DataSink
/-
What `DataSink` does with a sink that is polled.
-/
namespace Verif
open Spec
namespace SinkPoll
variable {σ : Type} {R : RawSink σ}

theorem NoFail.app1 {log : List Call} {c : Call} (h : NoFail (log ++ [c])) : NoFail log ∧ ¬ c.Failed :=
  ⟨fun x hx => h x (by simp [hx]), h c (by simp)⟩

/-- A sink that has been used well and has not failed. -/
structure Fine (x : Raw σ) : Prop where
  contract : SinkContract x.log
  nofail : NoFail x.log

theorem Fine.snoc {x : Raw σ} (h : Fine x) {c : Call} (hc : ¬ c.Failed) (hr : ∀ item r, c = .start item r → [.ready .ready] <:+ x.log)
    (st : σ) : Fine (⟨st, x.log ++ [c]⟩ : Raw σ) := ⟨h.contract.snoc h.nofail hr, h.nofail.snoc hc⟩

/-- One poll of a `Send`. -/
structure Sent (item : Option Bytes) (x : Raw σ) (a : Ans) (it : Option Bytes) (y : Raw σ) : Prop where
  contract : SinkContract y.log
  failed : a = .error ↔ ¬ NoFail y.log
  ready : a = .ready → handed y.log = handed x.log ++ item.toList ∧ flushed y.log = handed y.log
  pending : a = .pending → handed y.log ++ it.toList = handed x.log ++ item.toList ∧
    (it ≠ none → it = item ∧ flushed y.log = flushed x.log)
  error : a = .error → handed y.log <+: handed x.log ++ item.toList

private theorem poll_flush {x : Raw σ} (h : Fine x) {log0 : Raw σ} {item : Option Bytes} (hh : handed x.log = handed log0.log ++ item.toList) :
    Sent item log0 (x.pollFlush R).1 none (x.pollFlush R).2 := by
  have hs : SinkContract (x.pollFlush R).2.log := h.contract.snoc h.nofail (by simp)
  have hd : handed (x.pollFlush R).2.log = handed x.log := by simp [Raw.pollFlush, handed_append, handed]
  refine ⟨hs, ?_, ?_, ?_, ?_⟩
  · simp only [Raw.pollFlush]
    constructor
    · intro ha; exact fails_snoc (by simpa [Call.Failed] using ha)
    · intro hn
      apply Classical.byContradiction
      intro ha
      exact hn (h.nofail.snoc (by simpa [Call.Failed] using ha))
  · intro ha
    refine ⟨by rw [hd, hh], ?_⟩
    rw [hd]
    simp only [Raw.pollFlush] at ha ⊢
    rw [ha, flushed_ready]
  · intro _
    exact ⟨by rw [hd, hh]; simp, by simp⟩
  · intro _; rw [hd, hh]; exact List.prefix_rfl

theorem sent (item : Option Bytes) {x : Raw σ} (h : Fine x) :
    Sent item x (sendPoll R item x).1 (sendPoll R item x).2.1 (sendPoll R item x).2.2 := by
  cases item with
  | none => exact poll_flush h (by simp)
  | some it =>
    simp only [sendPoll]
    rcases hp : x.pollReady R with ⟨_ | _ | _, y⟩
    · have hy : Fine y := by
        have e : y = ⟨(R.pollReady x.st).2, x.log ++ [.ready .ready]⟩ := by
          have h1 := congrArg Prod.fst hp; have h2 := congrArg Prod.snd hp
          simp only [Raw.pollReady] at h1 h2; rw [← h2, h1]
        rw [e]; exact h.snoc (by simp [Call.Failed]) (by simp) _
      have el : y.log = x.log ++ [.ready .ready] := by
        have h1 := congrArg Prod.fst hp; have h2 := congrArg Prod.snd hp
        simp only [Raw.pollReady] at h1 h2; rw [← h2, h1]
      have hsuf : [.ready .ready] <:+ y.log := by rw [el]; exact List.suffix_append _ _
      have hdy : handed y.log = handed x.log := by rw [el, handed_append]; simp [handed]
      rcases hs : y.startSend R it with ⟨r, z⟩
      have ez : z.log = y.log ++ [.start it r] := by
        have h1 := congrArg Prod.fst hs; have h2 := congrArg Prod.snd hs
        simp only [Raw.startSend] at h1 h2; rw [← h2, ← h1]
      have cz : SinkContract z.log := by rw [ez]; exact hy.contract.snoc hy.nofail (fun _ _ _ => hsuf)
      simp only [hs]
      cases r with
      | ok =>
        have hz : Fine z := ⟨cz, by rw [ez]; exact hy.nofail.snoc (by simp [Call.Failed])⟩
        exact poll_flush hz (by rw [ez, handed_append, hdy]; simp [handed])
      | errDropped =>
        refine ⟨cz, ?_, by simp, by simp, ?_⟩
        · simp only [true_iff]; rw [ez]; exact fails_snoc (by simp [Call.Failed])
        · intro _; rw [ez, handed_append, hdy]; simp [handed]
      | errAccepted =>
        refine ⟨cz, ?_, by simp, by simp, ?_⟩
        · simp only [true_iff]; rw [ez]; exact fails_snoc (by simp [Call.Failed])
        · intro _; rw [ez, handed_append, hdy]; simp [handed]
    · have el : y.log = x.log ++ [.ready .pending] := by
        have h1 := congrArg Prod.fst hp; have h2 := congrArg Prod.snd hp
        simp only [Raw.pollReady] at h1 h2; rw [← h2, h1]
      have hn : NoFail y.log := by rw [el]; exact h.nofail.snoc (by simp [Call.Failed])
      refine ⟨by rw [el]; exact h.contract.snoc h.nofail (by simp), by simp [hn], by simp, ?_, by simp⟩
      intro _
      refine ⟨by rw [el, handed_append]; simp [handed], fun _ => ⟨rfl, by rw [el, flushed_other _ (by simp)]⟩⟩
    · have el : y.log = x.log ++ [.ready .error] := by
        have h1 := congrArg Prod.fst hp; have h2 := congrArg Prod.snd hp
        simp only [Raw.pollReady] at h1 h2; rw [← h2, h1]
      have hn : ¬ NoFail y.log := by rw [el]; exact fails_snoc (by simp [Call.Failed])
      refine ⟨by rw [el]; exact h.contract.snoc h.nofail (by simp), by simp [hn], by simp, by simp, ?_⟩
      intro _; rw [el, handed_append]; simp [handed]

/-! ### The bytes still to come -/

/-- What is written for the bytes `m` from state `st` on, with the end. -/
def tailBytes (st : KState) (m : Bytes) : Bytes := (encode st m).1 ++ DSink.endBytes (encode st m).2

/-- What is still to be handed over. -/
def leftBytes : SendPC → KState → Bytes
  | .sending item rest chunks, st => item.getD [] ++ tailBytes st (rest.getD [] ++ chunks.flatten)
  | .ending item, _ => item.getD []
  | .over _, _ => []

theorem tailBytes_append (st : KState) (a b : Bytes) : tailBytes st (a ++ b) = (encode st a).1 ++ tailBytes (encode st a).2 b := by
  simp [tailBytes, encode_append]

theorem tailBytes_wire (m : Bytes) : tailBytes .crLfPassed m = wireForm m := by
  have h := encode_stuff m
  unfold tailBytes wireForm
  rw [h.1]
  congr 1
  have h2 := h.2
  rcases he : (encode .crLfPassed m).2 with _ | _ | _ <;> rw [he] at h2 <;> simp at h2 <;> simp [h2, DSink.endBytes]

theorem scanned_left (st : KState) (item : Bytes) (chunks : List Bytes) :
    leftBytes (scanned st item chunks).1 (scanned st item chunks).2 = tailBytes st (item ++ chunks.flatten) := by
  have hs := sinkScan_spec st 0 item
  unfold scanned
  rcases hsc : sinkScan st 0 item with ⟨st', _ | pos⟩
  · rw [hsc] at hs
    simp only at hs
    simp only [leftBytes, Option.getD_some, Option.getD_none, List.nil_append]
    rw [tailBytes_append, hs]
  · rw [hsc] at hs
    obtain ⟨a, b, rfl, rfl, rfl, he⟩ := hs
    have htake : (a ++ cDOT :: b).take (0 + a.length + 1) = a ++ [cDOT] := by
      rw [List.take_append, List.take_of_length_le (by omega)]; simp
    have hdrop : (a ++ cDOT :: b).drop (0 + a.length) = cDOT :: b := by simp
    simp only [leftBytes, htake, hdrop, Option.getD_some]
    rw [List.append_assoc a [cDOT], List.append_assoc a (cDOT :: b), tailBytes_append st a, he]
    simp [tailBytes, encode, KState.next]

theorem nextChunk_left (st : KState) (chunks : List Bytes) :
    leftBytes (nextChunk st chunks).1 (nextChunk st chunks).2 = tailBytes st chunks.flatten := by
  cases chunks with
  | nil => simp [nextChunk, leftBytes, tailBytes, encode]
  | cons c cs => rw [nextChunk, scanned_left, List.flatten_cons]

theorem scanned_shape (st : KState) (item : Bytes) (chunks : List Bytes) : ∃ it rest, (scanned st item chunks).1 = .sending (some it) rest chunks := by
  unfold scanned
  rcases sinkScan st 0 item with ⟨st', _ | pos⟩ <;> exact ⟨_, _, rfl⟩

theorem nextChunk_shape (st : KState) (chunks : List Bytes) :
    (∃ it rest cs, (nextChunk st chunks).1 = .sending (some it) rest cs) ∨ ∃ it, (nextChunk st chunks).1 = .ending (some it) := by
  cases chunks with
  | nil => exact .inr ⟨_, rfl⟩
  | cons c cs => obtain ⟨it, rest, h⟩ := scanned_shape st c cs; exact .inl ⟨it, rest, cs, h⟩

/-! ### The invariant -/

/-- What the future holds. -/
def heldBy : SendPC → Option Bytes
  | .sending item _ _ => item
  | .ending item => item
  | .over _ => none

/-- What is true of somebody who sends what is written as `m`. -/
structure Good (m : Bytes) (x : Sender σ) : Prop where
  contract : SinkContract x.sink.log
  failed : x.pc = .over false ↔ ¬ NoFail x.sink.log
  bytes : x.pc ≠ .over false → (handed x.sink.log).flatten ++ leftBytes x.pc x.state = m
  cut : (handed x.sink.log).flatten <+: m
  flushed : x.pc = .over true → flushed x.sink.log = handed x.sink.log

private theorem flat (l : List Bytes) (o : Option Bytes) : (l ++ o.toList).flatten = l.flatten ++ o.getD [] := by
  cases o <;> simp

/-- The next future is made with the bytes that are left. -/
private theorem good_start {m : Bytes} {pc : SendPC} {st : KState} {s : Raw σ} (hf : Fine s)
    (hfl : pc = .over true → flushed s.log = handed s.log)
    (hb : (handed s.log).flatten ++ leftBytes pc st = m) (hpc : pc ≠ .over false) : Good m (⟨pc, st, s⟩ : Sender σ) :=
  ⟨hf.contract, by simp [hpc, hf.nofail], fun _ => hb, by rw [← hb]; exact List.prefix_append _ _, hfl⟩

theorem Good.step {m : Bytes} {x : Sender σ} (h : Good m x) : Good m (x.step R) := by
  obtain ⟨pc, st, s⟩ := x
  cases pc with
  | over ok => exact h
  | sending item rest chunks =>
    have hf : Fine s := ⟨h.contract, Classical.byContradiction fun hn => by simpa using h.failed.2 hn⟩
    have hs := sent (R := R) item hf
    have hb := h.bytes (by simp)
    simp only [leftBytes] at hb
    rw [← List.append_assoc, ← flat] at hb
    simp only [Sender.step]
    rcases hp : sendPoll R item s with ⟨a, it, s'⟩
    rw [hp] at hs
    simp only at hs
    cases a with
    | ready =>
      obtain ⟨h1, h2⟩ := hs.ready rfl
      have hf' : Fine s' := ⟨hs.contract, Classical.byContradiction fun hn => by simpa using hs.failed.2 hn⟩
      rw [← h1] at hb
      cases rest with
      | some r =>
        obtain ⟨it', rest', e⟩ := scanned_shape st r chunks
        exact good_start hf' (fun _ => h2) (by rw [scanned_left]; exact hb) (by rw [e]; simp)
      | none =>
        refine good_start hf' (fun _ => h2) (by rw [nextChunk_left]; exact hb) ?_
        rcases nextChunk_shape st chunks with ⟨_, _, _, e⟩ | ⟨_, e⟩ <;> rw [e] <;> simp
    | pending =>
      obtain ⟨h1, h2⟩ := hs.pending rfl
      rw [← h1] at hb
      have hn : NoFail s'.log := Classical.byContradiction fun hn => by simpa using hs.failed.2 hn
      have hb' : (handed s'.log).flatten ++ leftBytes (.sending it rest chunks) st = m := by
        rw [flat] at hb; simpa [leftBytes] using hb
      exact ⟨hs.contract, by simp [hn], fun _ => hb', by rw [← hb']; exact List.prefix_append _ _, by simp⟩
    | error =>
      have hn := hs.failed.1 rfl
      refine ⟨hs.contract, by simp [hn], by simp, ?_, by simp⟩
      obtain ⟨t, ht⟩ := hs.error rfl
      rw [← hb, ← ht]
      simp
  | ending item =>
    have hf : Fine s := ⟨h.contract, Classical.byContradiction fun hn => by simpa using h.failed.2 hn⟩
    have hs := sent (R := R) item hf
    have hb := h.bytes (by simp)
    simp only [leftBytes] at hb
    rw [← flat] at hb
    simp only [Sender.step]
    rcases hp : sendPoll R item s with ⟨a, it, s'⟩
    rw [hp] at hs
    simp only at hs
    cases a with
    | ready =>
      obtain ⟨h1, h2⟩ := hs.ready rfl
      have hf' : Fine s' := ⟨hs.contract, Classical.byContradiction fun hn => by simpa using hs.failed.2 hn⟩
      rw [← h1] at hb
      exact good_start hf' (fun _ => h2) (by simpa [leftBytes] using hb) (by simp)
    | pending =>
      obtain ⟨h1, h2⟩ := hs.pending rfl
      rw [← h1] at hb
      have hn : NoFail s'.log := Classical.byContradiction fun hn => by simpa using hs.failed.2 hn
      have hb' : (handed s'.log).flatten ++ leftBytes (.ending it) st = m := by
        rw [flat] at hb; simpa [leftBytes] using hb
      exact ⟨hs.contract, by simp [hn], fun _ => hb', by rw [← hb']; exact List.prefix_append _ _, by simp⟩
    | error =>
      have hn := hs.failed.1 rfl
      refine ⟨hs.contract, by simp [hn], by simp, ?_, by simp⟩
      obtain ⟨t, ht⟩ := hs.error rfl
      rw [← hb, ← ht]
      simp

theorem Good.steps {m : Bytes} {x : Sender σ} (h : Good m x) (n : Nat) : Good m (Sender.steps R n x) := by
  induction n with
  | zero => exact h
  | succ n ih => exact ih.step

theorem good_next {m : Bytes} {st : KState} {chunks : List Bytes} {s : Raw σ} (hf : Fine s)
    (hb : (handed s.log).flatten ++ tailBytes st chunks.flatten = m) :
    Good m (⟨(nextChunk st chunks).1, (nextChunk st chunks).2, s⟩ : Sender σ) := by
  refine good_start hf ?_ (by rw [nextChunk_left]; exact hb) ?_ <;>
  rcases nextChunk_shape st chunks with ⟨_, _, _, e⟩ | ⟨_, e⟩ <;> rw [e] <;> simp

theorem good_init (st : σ) (chunks : List Bytes) : Good (wireForm chunks.flatten) (Sender.init st chunks) := by
  refine good_next ⟨⟨?_, ?_⟩, ?_⟩ ?_
  · intro b i r l h; simp at h
  · intro b c l h; simp at h
  · intro c h; simp at h
  · simp [handed, tailBytes_wire]

theorem good_after (st : σ) (chunks : List Bytes) (n : Nat) : Good (wireForm chunks.flatten) (Sender.after R st chunks n) :=
  (good_init st chunks).steps n

/-! ### Each piece is flushed before the next is handed over -/

/-- At most one piece is not flushed, and none when the future still holds its piece. -/
structure Tidy (held : Option Bytes) (log : List Call) : Prop where
  one : ∃ more, handed log = flushed log ++ more ∧ more.length ≤ 1
  held : held ≠ none → flushed log = handed log

private theorem tidy_flush {x : Raw σ} (h : ∃ more, handed x.log = flushed x.log ++ more ∧ more.length ≤ 1) :
    Tidy none (x.pollFlush R).2.log := by
  have hd : handed (x.pollFlush R).2.log = handed x.log := by simp [Raw.pollFlush, handed_append, handed]
  refine ⟨?_, by simp⟩
  by_cases ha : (R.pollFlush x.st).1 = .ready
  · refine ⟨[], ?_, by simp⟩
    rw [hd]; simp only [Raw.pollFlush, ha, flushed_ready, List.append_nil]
  · rw [hd]
    simp only [Raw.pollFlush]
    rw [flushed_other _ (by simp [ha])]
    exact h

theorem tidy_poll (item : Option Bytes) {x : Raw σ} (h : Tidy item x.log) :
    Tidy (sendPoll R item x).2.1 (sendPoll R item x).2.2.log := by
  cases item with
  | none => exact tidy_flush h.one
  | some it =>
    have he := h.held (by simp)
    have el : (x.pollReady R).2.log = x.log ++ [.ready (x.pollReady R).1] := rfl
    have h1 : handed (x.pollReady R).2.log = handed x.log := by rw [el, handed_append]; simp [handed]
    have h2 : flushed (x.pollReady R).2.log = handed x.log := by rw [el, flushed_other _ (by simp), he]
    simp only [sendPoll]
    rcases hp : x.pollReady R with ⟨_ | _ | _, y⟩ <;> rw [hp] at h1 h2 <;> simp only at h1 h2
    · have ez : (y.startSend R it).2.log = y.log ++ [.start it (y.startSend R it).1] := rfl
      have h3 : flushed (y.startSend R it).2.log = handed x.log := by rw [ez, flushed_other _ (by simp), h2]
      have h4 : ∃ more, handed (y.startSend R it).2.log = handed x.log ++ more ∧ more.length ≤ 1 := by
        rw [ez, handed_append, h1]
        rcases (y.startSend R it).1 with _ | _ | _
        · exact ⟨[it], by simp [handed], by simp⟩
        · exact ⟨[], by simp [handed], by simp⟩
        · exact ⟨[it], by simp [handed], by simp⟩
      rcases hs : y.startSend R it with ⟨r, z⟩
      rw [hs] at h3 h4
      simp only [hs]
      simp only at h3 h4
      cases r with
      | ok => exact tidy_flush (by rw [h3]; exact h4)
      | errDropped => exact ⟨by rw [h3]; exact h4, by simp⟩
      | errAccepted => exact ⟨by rw [h3]; exact h4, by simp⟩
    · exact ⟨⟨[], by rw [h1, h2]; simp, by simp⟩, fun _ => by rw [h1, h2]⟩
    · exact ⟨⟨[], by rw [h1, h2]; simp, by simp⟩, fun _ => by rw [h1, h2]⟩

theorem tidy_flushed {log : List Call} (h : flushed log = handed log) (o : Option Bytes) : Tidy o log :=
  ⟨⟨[], by rw [h]; simp, by simp⟩, fun _ => h⟩

theorem tidy_step {x : Sender σ} (hf : x.pc ≠ .over false → Fine x.sink) (h : Tidy (heldBy x.pc) x.sink.log) :
    Tidy (heldBy (x.step R).pc) (x.step R).sink.log := by
  obtain ⟨pc, st, s⟩ := x
  cases pc with
  | over ok => exact h
  | sending item rest chunks =>
    have ht := tidy_poll (R := R) item h
    have hs := sent (R := R) item (hf (by simp))
    simp only [Sender.step]
    rcases hp : sendPoll R item s with ⟨a, it, s'⟩
    rw [hp] at ht hs
    cases a with
    | ready => cases rest <;> exact tidy_flushed (hs.ready rfl).2 _
    | pending => exact ht
    | error => exact ⟨ht.one, by simp [heldBy]⟩
  | ending item =>
    have ht := tidy_poll (R := R) item h
    have hs := sent (R := R) item (hf (by simp))
    simp only [Sender.step]
    rcases hp : sendPoll R item s with ⟨a, it, s'⟩
    rw [hp] at ht hs
    cases a with
    | ready => exact tidy_flushed (hs.ready rfl).2 _
    | pending => exact ht
    | error => exact ⟨ht.one, by simp [heldBy]⟩

theorem Good.fine {m : Bytes} {x : Sender σ} (h : Good m x) (hx : x.pc ≠ .over false) : Fine x.sink :=
  ⟨h.contract, Classical.byContradiction fun hn => hx (h.failed.2 hn)⟩

theorem tidy_after (st : σ) (chunks : List Bytes) (n : Nat) :
    Tidy (heldBy (Sender.after R st chunks n).pc) (Sender.after R st chunks n).sink.log := by
  induction n with
  | zero => exact tidy_flushed rfl _
  | succ n ih => exact tidy_step (good_after st chunks n).fine ih

/-! ### Where in the message the sender is -/

/-- The sender of `all`, which has begun the chunks `all` without `cs`: what they are written as is what was handed over, what is
held, and what the rest of the present chunk is written as. -/
def Tracks (all : List Bytes) (x : Sender σ) : Prop :=
  match x.pc with
  | .sending it rest cs => ∃ done, all = done ++ cs ∧
      encode .crLfPassed done.flatten =
        ((handed x.sink.log).flatten ++ it.getD [] ++ (encode x.state (rest.getD [])).1, (encode x.state (rest.getD [])).2)
  | _ => True

theorem scanned_tracks (all done cs : List Bytes) (c out : Bytes) (st : KState) (s : Raw σ) (ho : (handed s.log).flatten = out)
    (ha : all = done ++ cs)
    (he : encode .crLfPassed done.flatten = (out ++ (encode st c).1, (encode st c).2)) :
    Tracks all (⟨(scanned st c cs).1, (scanned st c cs).2, s⟩ : Sender σ) := by
  have hs := sinkScan_spec st 0 c
  unfold scanned
  rcases hsc : sinkScan st 0 c with ⟨st', _ | pos⟩
  · rw [hsc] at hs
    simp only at hs
    refine ⟨done, ha, ?_⟩
    rw [he, hs, ho]; simp [encode]
  · rw [hsc] at hs
    obtain ⟨a, b, rfl, rfl, rfl, hsa⟩ := hs
    have htake : (a ++ cDOT :: b).take (0 + a.length + 1) = a ++ [cDOT] := by
      rw [List.take_append, List.take_of_length_le (by omega)]; simp
    have hdrop : (a ++ cDOT :: b).drop (0 + a.length) = cDOT :: b := by simp
    refine ⟨done, ha, ?_⟩
    simp only [htake, hdrop, Option.getD_some]
    rw [he, ho, encode_append st a, hsa]
    simp [encode, KState.next]

theorem nextChunk_tracks (all done cs : List Bytes) (st : KState) (s : Raw σ) (ha : all = done ++ cs)
    (he : encode .crLfPassed done.flatten = ((handed s.log).flatten, st)) :
    Tracks all (⟨(nextChunk st cs).1, (nextChunk st cs).2, s⟩ : Sender σ) := by
  cases cs with
  | nil => trivial
  | cons c cs =>
    refine scanned_tracks all (done ++ [c]) cs c _ st s rfl (by simp [ha]) ?_
    simp only [List.flatten_append, List.flatten_cons, List.flatten_nil, List.append_nil]
    rw [encode_append, he]

theorem tracks_step {all : List Bytes} {x : Sender σ} (hf : x.pc ≠ .over false → Fine x.sink) (h : Tracks all x) : Tracks all (x.step R) := by
  obtain ⟨pc, st, s⟩ := x
  cases pc with
  | over ok => exact h
  | ending item =>
    simp only [Sender.step]
    rcases sendPoll R item s with ⟨_ | _ | _, it, s'⟩ <;> trivial
  | sending item rest chunks =>
    have hs := sent (R := R) item (hf (by simp))
    obtain ⟨done, ha, he⟩ := h
    simp only at he
    rw [← flat] at he
    simp only [Sender.step]
    rcases hp : sendPoll R item s with ⟨a, it, s'⟩
    rw [hp] at hs
    simp only at hs
    cases a with
    | ready =>
      have h1 := (hs.ready rfl).1
      rw [← h1] at he
      cases rest with
      | some r => exact scanned_tracks all done chunks r _ st s' rfl ha he
      | none => exact nextChunk_tracks all done chunks st s' ha (by simpa [encode] using he)
    | pending =>
      have h1 := (hs.pending rfl).1
      rw [← h1, flat] at he
      exact ⟨done, ha, he⟩
    | error => trivial

theorem tracks_after (st : σ) (chunks : List Bytes) (n : Nat) : Tracks chunks (Sender.after R st chunks n) := by
  induction n with
  | zero => exact nextChunk_tracks chunks [] chunks .crLfPassed _ rfl (by simp [encode, handed])
  | succ n ih => exact tracks_step (good_after st chunks n).fine ih

/-! ### A willing sink gets everything -/

theorem steps_step (n : Nat) (x : Sender σ) : Sender.steps R n (x.step R) = Sender.steps R (n + 1) x := by
  induction n with
  | zero => rfl
  | succ n ih => rw [Sender.steps, ih]; rfl

theorem steps_add' (a b : Nat) (x : Sender σ) : Sender.steps R (a + b) x = Sender.steps R b (Sender.steps R a x) := by
  induction b with
  | zero => rfl
  | succ b ih => rw [← Nat.add_assoc, Sender.steps, ih]; rfl

/-- A `Send` that is polled often enough is ready. -/
private theorem send_ends {wait : σ → Nat} (hw : Willing R wait) {st : KState} {mk : Option Bytes → SendPC} {fin bad : Raw σ → Sender σ}
    (hstep : ∀ it s, (⟨mk it, st, s⟩ : Sender σ).step R = match sendPoll R it s with
      | (.ready, _, s') => fin s' | (.pending, it', s') => ⟨mk it', st, s'⟩ | (.error, _, s') => bad s') (it : Option Bytes) (s : Raw σ) :
    ∃ n s', Sender.steps R n ⟨mk it, st, s⟩ = fin s' := by
  have flush : ∀ k (s : Raw σ), wait s.st ≤ k → ∃ n s', Sender.steps R n ⟨mk none, st, s⟩ = fin s' := by
    intro k
    induction k with
    | zero =>
      intro s hk
      have := hw.flush s.st
      refine ⟨1, (s.pollFlush R).2, ?_⟩
      simp only [Sender.steps, hstep, sendPoll, Raw.pollFlush]
      rcases ha : (R.pollFlush s.st).1 with _ | _ | _
      · rfl
      · have := this.2 ha; omega
      · exact absurd ha this.1
    | succ k ih =>
      intro s hk
      have hfl := hw.flush s.st
      rcases ha : (R.pollFlush s.st).1 with _ | _ | _
      · refine ⟨1, (s.pollFlush R).2, ?_⟩
        simp only [Sender.steps, hstep, sendPoll, Raw.pollFlush, ha]
      · obtain ⟨n, s', h⟩ := ih (s.pollFlush R).2 (by have := hfl.2 ha; simp only [Raw.pollFlush]; omega)
        refine ⟨n + 1, s', ?_⟩
        rw [← steps_step, hstep]
        simp only [sendPoll, Raw.pollFlush, ha] at h ⊢
        exact h
      · exact absurd ha hfl.1
  cases it with
  | none => exact flush _ s (Nat.le_refl _)
  | some it =>
    have ready : ∀ k (s : Raw σ), wait s.st ≤ k → ∃ n s', Sender.steps R n ⟨mk (some it), st, s⟩ = fin s' := by
      have now : ∀ s : Raw σ, (R.pollReady s.st).1 = .ready → ∃ n s', Sender.steps R n ⟨mk (some it), st, s⟩ = fin s' := by
        intro s ha
        have e : (s.pollReady R).1 = .ready := ha
        have e2 : (((s.pollReady R).2).startSend R it).1 = .ok := hw.start _ _
        rcases hb : ((((s.pollReady R).2).startSend R it).2.pollFlush R).1 with _ | _ | _
        · refine ⟨1, ((((s.pollReady R).2).startSend R it).2.pollFlush R).2, ?_⟩
          simp only [Sender.steps, hstep, sendPoll]
          rw [show s.pollReady R = (.ready, (s.pollReady R).2) from Prod.ext e rfl]
          simp only
          rw [show ((s.pollReady R).2).startSend R it = (.ok, (((s.pollReady R).2).startSend R it).2) from Prod.ext e2 rfl]
          simp only [hb]
        · obtain ⟨n, s', h⟩ := flush _ ((((s.pollReady R).2).startSend R it).2.pollFlush R).2 (Nat.le_refl _)
          refine ⟨n + 1, s', ?_⟩
          rw [← steps_step, hstep]
          simp only [sendPoll]
          rw [show s.pollReady R = (.ready, (s.pollReady R).2) from Prod.ext e rfl]
          simp only
          rw [show ((s.pollReady R).2).startSend R it = (.ok, (((s.pollReady R).2).startSend R it).2) from Prod.ext e2 rfl]
          simp only [hb]
          exact h
        · exact absurd hb (hw.flush _).1
      intro k
      induction k with
      | zero =>
        intro s hk
        have := hw.ready s.st
        rcases ha : (R.pollReady s.st).1 with _ | _ | _
        · exact now s ha
        · have := this.2 ha; omega
        · exact absurd ha this.1
      | succ k ih =>
        intro s hk
        have := hw.ready s.st
        rcases ha : (R.pollReady s.st).1 with _ | _ | _
        · exact now s ha
        · obtain ⟨n, s', h⟩ := ih (s.pollReady R).2 (by have := this.2 ha; simp only [Raw.pollReady]; omega)
          refine ⟨n + 1, s', ?_⟩
          rw [← steps_step, hstep]
          simp only [sendPoll]
          rw [show s.pollReady R = (.pending, (s.pollReady R).2) from Prod.ext ha rfl]
          exact h
        · exact absurd ha this.1
    exact ready _ s (Nat.le_refl _)

/-- Sends left to do. -/
private def work : SendPC → KState → Nat
  | .sending _ rest chunks, st => (tailBytes st (rest.getD [] ++ chunks.flatten)).length + chunks.length + (if rest.isSome then 2 else 1)
  | _, _ => 0

private theorem scanned_work (st : KState) (item : Bytes) (chunks : List Bytes) :
    work (scanned st item chunks).1 (scanned st item chunks).2 < (tailBytes st (item ++ chunks.flatten)).length + chunks.length + 2 := by
  have h := scanned_left st item chunks
  have hs := sinkScan_spec st 0 item
  rw [← h]
  unfold scanned
  rcases hsc : sinkScan st 0 item with ⟨st', _ | pos⟩
  · simp [work, leftBytes]; omega
  · rw [hsc] at hs
    obtain ⟨a, b, rfl, rfl, rfl, he⟩ := hs
    have htake : (a ++ cDOT :: b).take (0 + a.length + 1) = a ++ [cDOT] := by
      rw [List.take_append, List.take_of_length_le (by omega)]; simp
    simp only [work, leftBytes, htake]
    simp; omega

/-- A willing sink gets everything. -/
theorem sender_ends {wait : σ → Nat} (hw : Willing R wait) (x : Sender σ) (hx : x.pc ≠ .over false) : ∃ n, (Sender.steps R n x).pc = .over true := by
  have fin : ∀ it st (s : Raw σ), ∃ n, (Sender.steps R n ⟨.ending it, st, s⟩).pc = .over true := by
    intro it st s
    obtain ⟨n, s', h⟩ := send_ends hw (st := st) (mk := .ending) (fin := fun s' => ⟨.over true, st, s'⟩) (bad := fun s' => ⟨.over false, st, s'⟩)
      (fun it s => by simp only [Sender.step]; rcases sendPoll R it s with ⟨_ | _ | _, _, _⟩ <;> rfl) it s
    exact ⟨n, by rw [h]⟩
  have main : ∀ k it rest chunks st (s : Raw σ), work (.sending it rest chunks) st ≤ k →
      ∃ n, (Sender.steps R n ⟨.sending it rest chunks, st, s⟩).pc = .over true := by
    intro k
    induction k with
    | zero => intro it rest chunks st s hk; simp only [work] at hk; split at hk <;> omega
    | succ k ih =>
      intro it rest chunks st s hk
      cases rest with
      | some r =>
        obtain ⟨n, s', h⟩ := send_ends hw (st := st) (mk := fun it => .sending it (some r) chunks)
          (fin := fun s' => ⟨(scanned st r chunks).1, (scanned st r chunks).2, s'⟩) (bad := fun s' => ⟨.over false, st, s'⟩)
          (fun it s => by simp only [Sender.step]; rcases sendPoll R it s with ⟨_ | _ | _, _, _⟩ <;> rfl) it s
        have hw' := scanned_work st r chunks
        obtain ⟨it', rest', e⟩ := scanned_shape st r chunks
        rw [e] at hw' h
        obtain ⟨n', h'⟩ := ih it' rest' chunks (scanned st r chunks).2 s' (by
          have : work (.sending it (some r) chunks) st = (tailBytes st (r ++ chunks.flatten)).length + chunks.length + 2 := rfl
          omega)
        exact ⟨n + n', by rw [steps_add', h]; exact h'⟩
      | none =>
        obtain ⟨n, s', h⟩ := send_ends hw (st := st) (mk := fun it => .sending it none chunks)
          (fin := fun s' => ⟨(nextChunk st chunks).1, (nextChunk st chunks).2, s'⟩) (bad := fun s' => ⟨.over false, st, s'⟩)
          (fun it s => by simp only [Sender.step]; rcases sendPoll R it s with ⟨_ | _ | _, _, _⟩ <;> rfl) it s
        cases chunks with
        | nil =>
          obtain ⟨n', h'⟩ := fin (some (DSink.endBytes st)) st s'
          exact ⟨n + n', by rw [steps_add', h]; exact h'⟩
        | cons c cs =>
          have hw' := scanned_work st c cs
          obtain ⟨it', rest', e⟩ := scanned_shape st c cs
          simp only [nextChunk] at h
          rw [e] at hw' h
          obtain ⟨n', h'⟩ := ih it' rest' cs (scanned st c cs).2 s' (by
            have : work (.sending it none (c :: cs)) st = (tailBytes st (c ++ cs.flatten)).length + (cs.length + 1) + 1 := rfl
            omega)
          exact ⟨n + n', by rw [steps_add', h]; exact h'⟩
  obtain ⟨pc, st, s⟩ := x
  cases pc with
  | over ok => cases ok with
    | true => exact ⟨0, rfl⟩
    | false => exact absurd rfl hx
  | ending it => exact fin it st s
  | sending it rest chunks => exact main _ it rest chunks st s (Nat.le_refl _)

end SinkPoll
end Verif
