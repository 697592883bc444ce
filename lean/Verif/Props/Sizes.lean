import Verif.Spec.Sizes
import Verif.Props.Sink
import Verif.Props.Session
import Verif.Proofs.AnyHandler
import Verif.Props.Commands
import Verif.Props.SessionExamples
/-
C119: how much is written, compared with what was received or was to be sent.
-/
namespace Verif
open Spec Server

/-! ### Messages -/

private theorem addDot_length (l : Bytes) : (addDot l).length = l.length + if startsWithDot l then 1 else 0 := by
  match l with
  | [] => rfl
  | c :: l =>
    by_cases h : c = 46
    · subst h; simp [addDot, startsWithDot]
    · have h1 : addDot (c :: l) = c :: l := by
        unfold addDot; split
        · rename_i e; simp at e; exact absurd e.1 h
        · rfl
      have h2 : startsWithDot (c :: l) = false := by
        unfold startsWithDot; split
        · rename_i e; simp at e; exact absurd e.1 h
        · rfl
      simp [h1, h2]

private theorem stuff_length (m : Bytes) : (stuff m).length = m.length + dotLines m := by
  rcases crlf_split m with h | ⟨l, t, hl, rfl⟩
  · have := addDot_length m
    simp only [stuff, dotLines, splitCrlf_noCrlf h, List.map, joinCrlf, List.filter]
    split <;> simp_all
  · have ih := stuff_length t
    have hne := splitCrlf_ne_nil t
    have := addDot_length l
    simp only [stuff, dotLines, splitCrlf_line hl] at ih ⊢
    obtain ⟨x, xs, hx⟩ := List.exists_cons_of_ne_nil hne
    rw [hx] at ih ⊢
    simp only [List.map, joinCrlf, List.filter, List.length_append] at ih ⊢
    cases hd : startsWithDot l <;> simp [hd] at this ⊢ <;> omega
termination_by m.length
decreasing_by all_goals grind

private theorem dotLines_le (m : Bytes) : 3 * dotLines m ≤ m.length + 2 := by
  rcases crlf_split m with h | ⟨l, t, hl, rfl⟩
  · simp only [dotLines, splitCrlf_noCrlf h, List.filter]
    match m with
    | [] => simp [startsWithDot]
    | c :: m => split <;> simp
  · have ih := dotLines_le t
    simp only [dotLines, splitCrlf_line hl, List.filter] at ih ⊢
    match l with
    | [] => simp [startsWithDot] at ih ⊢; omega
    | c :: l => split <;> simp at ih ⊢ <;> omega
termination_by m.length
decreasing_by all_goals grind

/-- C119. The size of a message on the wire: its own size, one byte for each line that starts with a dot, and three or
five bytes for the end; at most a third more than the message, and six bytes. -/
theorem c119_message (s s' : BSink) (chunks : List Bytes) (h : DSink.sendMessage s chunks = some (true, s')) :
    let m := chunks.flatten
    s'.out.flatten.length = s.out.flatten.length + m.length + dotLines m + (if m = [] ∨ crlf <:+ m then 3 else 5) ∧
    3 * dotLines m ≤ m.length + 2 := by
  refine ⟨?_, dotLines_le _⟩
  rw [c08_sink_output s s' chunks h]
  simp only [List.length_append, wireForm, stuff_length]
  split <;> simp <;> omega

private theorem sendLoop_count (fuel : Nat) (k k' : DSink) (item : Bytes) (h : DSink.sendLoop fuel k item = some (true, k')) :
    ∃ new, k'.sink.out = k.sink.out ++ new ∧ new.flatten.length + 1 = item.length + new.length := by
  induction fuel generalizing k item with
  | zero => simp [DSink.sendLoop] at h
  | succ fuel ih =>
    rw [DSink.sendLoop] at h
    have hs := sinkScan_spec k.state 0 item
    rcases hsc : sinkScan k.state 0 item with ⟨st, _ | pos⟩
    · rw [hsc] at h hs
      rcases k.sink.send_cases item with ⟨s', h1, h2⟩ | ⟨s', h1, h2⟩
      · simp only [h1, Option.some.injEq, Prod.mk.injEq, true_and] at h
        subst h
        exact ⟨[item], h2, by simp⟩
      · simp [h1] at h
    · rw [hsc] at h hs
      simp only at h hs
      obtain ⟨a, b, rfl, rfl, rfl, he⟩ := hs
      have htake : (a ++ cDOT :: b).take (0 + a.length + 1) = a ++ [cDOT] := by
        rw [List.take_append, List.take_of_length_le (by omega)]; simp
      have hdrop : (a ++ cDOT :: b).drop (0 + a.length) = cDOT :: b := by simp
      rw [htake, hdrop] at h
      rcases k.sink.send_cases (a ++ [cDOT]) with ⟨s', h1, h2⟩ | ⟨s', h1, h2⟩
      · simp only [h1, if_true] at h
        obtain ⟨new, g1, g2⟩ := ih _ _ h
        refine ⟨(a ++ [cDOT]) :: new, by simp [g1, h2], ?_⟩
        simp at g2 ⊢
        omega
      · simp [h1] at h

private theorem sendAll_count (k k' : DSink) (chunks : List Bytes) (h : k.sendAll chunks = some (true, k')) :
    ∃ new, k'.sink.out = k.sink.out ++ new ∧ new.flatten.length + chunks.length = chunks.flatten.length + new.length := by
  induction chunks generalizing k with
  | nil => simp [DSink.sendAll] at h; subst h; exact ⟨[], by simp, by simp⟩
  | cons c cs ih =>
    rw [DSink.sendAll] at h
    rcases hk : k.send c with _ | ⟨_ | _, k1⟩
    · simp [hk] at h
    · simp [hk] at h
    · rw [hk] at h
      obtain ⟨n1, a1, a2⟩ := sendLoop_count _ _ _ _ hk
      obtain ⟨n2, b1, b2⟩ := ih _ h
      refine ⟨n1 ++ n2, by simp [b1, a1], ?_⟩
      simp at a2 b2 ⊢
      omega

/-- C119. The number of items handed to the connection for a message: one for each chunk, one more for each line that
starts with a dot, and one for the end. -/
theorem c119_writes (s s' : BSink) (chunks : List Bytes) (h : DSink.sendMessage s chunks = some (true, s')) :
    s'.out.length = s.out.length + chunks.length + dotLines chunks.flatten + 1 := by
  have hm := (c119_message s s' chunks h).1
  have ho := c08_sink_output s s' chunks h
  unfold DSink.sendMessage at h
  rcases hk : (DSink.new s).sendAll chunks with _ | ⟨_ | _, k'⟩
  · simp [hk] at h
  · simp [hk] at h
  · rw [hk] at h
    obtain ⟨new, h1, h2⟩ := sendAll_count _ _ _ hk
    simp only [Option.some.injEq, DSink.finish] at h
    have hd : (DSink.new s).sink = s := rfl
    rw [hd] at h1
    rcases k'.sink.send_cases (DSink.endBytes k'.state) with ⟨s2, g1, g2⟩ | ⟨s2, g1, g2⟩
    · rw [g1] at h
      simp only [Prod.mk.injEq, true_and] at h
      subst h
      have he : (DSink.endBytes k'.state).length = if chunks.flatten = [] ∨ crlf <:+ chunks.flatten then 3 else 5 := by
        have e := encode_stuff chunks.flatten
        have hh := sendAll_ok (DSink.new s) chunks
        rw [hk] at hh
        obtain ⟨new', _, h4⟩ := hh
        have h5 : (new'.flatten, k'.state) = encode .crLfPassed chunks.flatten := h4
        rw [← h5] at e
        have e2 := e.2
        simp only at e2
        cases hs : k'.state <;> rw [hs] at e2 <;> simp at e2 <;> simp [DSink.endBytes, e2]
      rw [g2, h1] at hm ⊢
      simp only [List.flatten_append, List.length_append, List.flatten_cons, List.flatten_nil, List.length_cons,
        List.length_nil, List.append_nil] at hm ⊢
      omega
    · rw [g1] at h; simp at h

/-! ### Sessions -/
variable {L : IpLib} {S U : Type} {C : Config L S U}

private theorem repliesOf_append (a b : List (Ev L)) : repliesOf (a ++ b) = repliesOf a ++ repliesOf b := by
  induction a with
  | nil => rfl
  | cons e a ih => cases e <;> simp [repliesOf, ih]

/-- A treatment of messages that gives no bytes back that were not there. -/
private def Shrinks : Handling L S U := fun _ _ _ b _ _ _ b' => b'.length ≤ b.length

private theorem handles_shrinks (fuel : Nat) : ∀ s u m b d s' u' b', Handles C fuel s u m b d s' u' b' →
    (Shrinks : Handling L S U) s u m b d s' u' b' := by
  rintro s u m b d s' u' b' ⟨rd, x, rfl, h1, h2, rfl⟩
  rcases runHandler_anywhere rd h1 h2 with ⟨c, h, _⟩ | h
  · simp [Shrinks, h]; omega
  · simp [Shrinks, h]

private theorem upto_shrinks (fuel : Nat) (evs : List (Ev L)) : ∀ s u m b d s' u' b', Upto C fuel evs s u m b d s' u' b' →
    (Shrinks : Handling L S U) s u m b d s' u' b' := by
  intro s u m b d s' u' b' h
  by_cases hd : Ev.handled d ∈ evs
  · exact handles_shrinks fuel _ _ _ _ _ _ _ _ (h.1 hd)
  · rw [h.2 hd]; exact Nat.le_refl _

private theorem exchange_count (hL : IpLaws L) {l b b' : Bytes} {st st' : SState L S U} {evs : List (Ev L)}
    (h : Exchange C Shrinks (commandOn (l ++ crlf)) st b evs st' b') :
    2 * (repliesOf evs).length + b'.length ≤ l.length + 2 + b.length := by
  generalize hc : commandOn (L := L) (l ++ crlf) = cmd at h
  cases h
  case dataHandled hH _ _ =>
    have hp : Command.parse (l ++ crlf) = .ok (.data : Command L) := by
      unfold commandOn at hc
      cases hp : (Command.parse (l ++ crlf) : Except ParseErr (Command L)) with
      | error e => rw [hp] at hc; simp [Except.toOption] at hc
      | ok c => rw [hp] at hc; simp [Except.toOption] at hc; rw [hc]
    obtain ⟨v, bl, hv, _, e⟩ := ((c29_bare hL _).1).1 hp
    have e := congrArg List.length e
    have hv := congrArg List.length hv
    simp [repliesOf, Shrinks] at *
    omega
  all_goals (simp [repliesOf]; try omega)

private theorem dialogue_count (hL : IpLaws L) {st st' : SState L S U} {b b' : Bytes} {evs : List (Ev L)}
    (h : Dialogue C Shrinks st b evs st' b') : 2 * (repliesOf evs).length + b'.length ≤ b.length := by
  induction h with
  | nil => simp [repliesOf]
  | cons h1 h2 h3 ih =>
    have := exchange_count hL h2
    simp [repliesOf_append, repliesOf] at this ⊢
    omega

/-- C119. Whatever the configuration, the mail handlers and the connection do, the server sends at most one reply for
every two bytes it receives, besides the banner. -/
theorem c119_replies (hL : IpLaws L) (fuel : Nat) (incoming : List (SrcEv Bytes)) (outgoing : BSink) (s : S) (u : U)
    (r : Res Unit) (w : World L S U) (h : interact C fuel incoming outgoing s u = (r, w)) :
    2 * (repliesOf w.trace).length ≤ (evBytes incoming).length + 2 := by
  have := interact_out C fuel incoming outgoing s u
  rw [h] at this
  dsimp only at this
  have herr : repliesOf (errEv r : List (Ev L)) = [] := by cases r <;> rfl
  cases this with
  | ok j1 j2 =>
    have := dialogue_count hL (j2.mono (handles_shrinks fuel))
    rw [j1]; simp [repliesOf]; omega
  | rounds j1 j2 =>
    have := dialogue_count hL (j2.mono (handles_shrinks fuel))
    rw [j1]; simp [repliesOf]; omega
  | banner j1 => rw [j1, herr]; simp
  | cut j1 j2 j3 j4 =>
    have h1 := dialogue_count hL (j2.mono (handles_shrinks fuel))
    have h2 := exchange_count hL (j4.mono (upto_shrinks fuel _))
    rw [j1]
    simp [repliesOf, repliesOf_append, herr] at h1 h2 ⊢
    omega

private theorem wire_size {code : Nat} {t : Bytes} {ls : List Bytes} (h : ReplyOnWire code t ls) :
    ls.flatten.length = replySize t.length := by
  induction h with
  | nothing => rfl
  | last h1 h2 h3 =>
    obtain ⟨d, hd, rfl⟩ := h3
    have := List.length_pos_iff.2 h1
    have hd3 : d.length = 3 := by obtain ⟨a, b, c, rfl, _⟩ := hd; rfl
    simp [replySize, hd3]
    omega
  | more h1 h2 h3 h4 ih =>
    obtain ⟨d, hd, rfl⟩ := h2
    have hd3 : d.length = 3 := by obtain ⟨a, b, c, rfl, _⟩ := hd; rfl
    simp [replySize, hd3, h1] at ih ⊢
    omega

private theorem replySize_mono {a b : Nat} (h : a ≤ b) : replySize a ≤ replySize b := by
  unfold replySize
  omega

/-- C119. A session that ends normally has written for its replies their texts and six bytes for each line. -/
theorem c119_output (fuel : Nat) (incoming : List (SrcEv Bytes)) (outgoing : BSink) (s : S) (u : U)
    (w : World L S U) (h : interact C fuel incoming outgoing s u = (.ok (), w))
    (hs : ∀ x ∈ repliesOf w.trace, Sendable x ∧ x.1.code < 1000) :
    w.writer.out.flatten.length =
      outgoing.out.flatten.length + ((repliesOf w.trace).map fun x => replySize x.2.length).sum := by
  obtain ⟨new, h1, h2⟩ := c46_output C fuel incoming outgoing s u _ w h
  rw [h1, h2 rfl]
  generalize repliesOf w.trace = rs at hs ⊢
  simp only [List.append_nil, List.flatten_append, List.length_append]
  congr 1
  clear h1 h2
  induction rs with
  | nil => rfl
  | cons x rs ih =>
    have hx := hs x (by simp)
    have := wire_size (c46_wire x hx.1 hx.2)
    simp only [List.flatMap_cons, List.flatten_append, List.length_append, List.map_cons, List.sum_cons, this]
    rw [ih fun y hy => hs y (by simp [hy])]

/-- C119. If no reply has more than `T` bytes of text, the server sends at most half the size of such a reply for each byte
it receives, besides one such reply. -/
theorem c119_amplification (hL : IpLaws L) (fuel : Nat) (incoming : List (SrcEv Bytes)) (outgoing : BSink) (s : S) (u : U)
    (w : World L S U) (h : interact C fuel incoming outgoing s u = (.ok (), w)) (T : Nat)
    (hs : ∀ x ∈ repliesOf w.trace, Sendable x ∧ x.1.code < 1000 ∧ x.2.length ≤ T) :
    2 * w.writer.out.flatten.length ≤
      2 * outgoing.out.flatten.length + ((evBytes incoming).length + 2) * replySize T := by
  have h1 := c119_output fuel incoming outgoing s u w h fun x hx => ⟨(hs x hx).1, (hs x hx).2.1⟩
  have h2 := c119_replies hL fuel incoming outgoing s u _ w h
  have h3 : ((repliesOf w.trace).map fun x => replySize x.2.length).sum ≤ (repliesOf w.trace).length * replySize T := by
    have hs' := fun x hx => (hs x hx).2.2
    generalize repliesOf w.trace = rs at hs'
    clear hs h1 h2
    induction rs with
    | nil => simp
    | cons x rs ih =>
      have := replySize_mono (hs' x (by simp))
      have := ih fun y hy => hs' y (by simp [hy])
      simp only [List.map_cons, List.sum_cons, List.length_cons, Nat.add_mul]
      omega
  have h4 := Nat.mul_le_mul_right (replySize T) h2
  rw [Nat.mul_assoc] at h4
  omega

/-! ### The bounds are reached -/

private theorem dots_line (m : Bytes) : dotLines (b!"." ++ crlf ++ m) = dotLines m + 1 := by
  have h : NoCrlf b!"." := by
    rintro ⟨a, b, e⟩
    have := congrArg List.length e
    simp at this
    omega
  simp only [dotLines, splitCrlf_line h, List.filter, startsWithDot, List.length_cons]

/-- C119. A message of any number of lines that are just a dot, and an unfinished last one, grows by a third. -/
theorem c119_message_tight (k : Nat) :
    let m := (List.replicate k b!".\r\n").flatten ++ b!"."
    m.length = 3 * k + 1 ∧ dotLines m = k + 1 := by
  induction k with
  | zero => decide +kernel
  | succ k ih =>
    simp only [List.replicate_succ, List.flatten_cons, List.append_assoc] at ih ⊢
    refine ⟨by simp at ih ⊢; omega, ?_⟩
    have := dots_line ((List.replicate k b!".\r\n").flatten ++ b!".")
    rw [ih.2] at this
    exact this

private theorem empty_line : commandOn (L := L) crlf = none := by
  rfl

private theorem empty_dialogue {H : Handling L S U} {st st' : SState L S U} {k : Nat} {b b' : Bytes} {evs : List (Ev L)}
    (h : Dialogue C H st b evs st' b') (hb : b = (List.replicate k crlf).flatten) (hn : NoCrlf b') :
    repliesOf evs = List.replicate k (C.commandUnrecognized st.cfg) := by
  induction h generalizing k with
  | nil =>
    cases k with
    | zero => rfl
    | succ k => exact absurd ⟨[], (List.replicate k crlf).flatten, by simp [hb, List.replicate_succ]⟩ hn
  | @cons st l t evs st1 b1 evs' st2 b2 h1 h2 h3 ih =>
    cases k with
    | zero => simp at hb
    | succ k =>
      have e : l = [] ∧ t = (List.replicate k crlf).flatten := by
        rw [List.replicate_succ, List.flatten_cons] at hb
        match l with
        | [] => simpa using hb
        | [c] =>
          simp at hb
        | c :: d :: l =>
          simp at hb
          exact absurd ⟨[], l, by simp [hb.1, hb.2.1]⟩ h1
      obtain ⟨rfl, rfl⟩ := e
      rw [List.nil_append, empty_line] at h2
      cases h2
      have := ih rfl hn
      simp [repliesOf, repliesOf_append, this, List.replicate_succ]

private theorem empty_bytes (k : Nat) : evBytes (List.replicate k (.pkt crlf)) = (List.replicate k crlf).flatten := by
  induction k with
  | zero => rfl
  | succ k ih => simp [List.replicate_succ, evBytes, ih]

/-- C119. Empty lines get a reply each: one reply for every two bytes, for any number of them. -/
theorem c119_replies_tight (hs : SendableConfig C) (hc : ∀ s u m, Conforming (C.handleMail s u m)) (k : Nat) (s : S) (u : U) :
    ∃ n0 w, (∀ n, n0 ≤ n → interact C n (List.replicate k (.pkt crlf)) ⟨[], []⟩ s u = (.ok (), w)) ∧
      repliesOf w.trace = C.welcomeBanner s :: List.replicate k (C.commandUnrecognized s) := by
  obtain ⟨n0, r, w, h1, _, _, h4⟩ := c53_ok_iff C hs hc (List.replicate k (.pkt crlf)) ⟨[], []⟩ s u
  have hr : r = .ok () := h4 (by simp)
  subst hr
  refine ⟨n0, w, h1, ?_⟩
  have := interact_out C n0 (List.replicate k (.pkt crlf)) ⟨[], []⟩ s u
  rw [h1 n0 (Nat.le_refl _)] at this
  dsimp only at this
  cases this with
  | ok j1 j2 j3 =>
    have hb := empty_bytes k
    rw [j1]
    simp only [repliesOf]
    rw [empty_dialogue j2 hb j3]
  | banner _ _ j => exact absurd rfl (j.not_ok ())
  | cut _ _ _ _ _ j => exact absurd rfl (j.not_ok ())

/-- C119, a case. A message in two chunks with two lines that start with a dot: five writes. And the default server: any
number of empty lines, two bytes each, get 28 bytes each. -/
theorem c119_example :
    (∃ s', DSink.sendMessage ⟨[], []⟩ [b!".a\r\n", b!".b"] = some (true, s') ∧
      s'.out = [b!".", b!".a\r\n", b!".", b!".b", b!"\r\n.\r\n"] ∧ dotLines b!".a\r\n.b" = 2) ∧
    ∀ k, ∃ n0 w, (∀ n, n0 ≤ n → interact exampleConfig n (List.replicate k (.pkt crlf)) ⟨[], []⟩ () () = (.ok (), w)) ∧
      w.writer.out.flatten.length = (exampleConfig.welcomeBanner ()).2.length + 6 + 28 * k := by
  refine ⟨⟨_, rfl, by decide +kernel, by decide +kernel⟩, fun k => ?_⟩
  obtain ⟨n0, w, h1, h2⟩ := c119_replies_tight example_sendable example_conforming k () ()
  refine ⟨n0, w, h1, ?_⟩
  rw [c119_output n0 _ _ () () w (h1 n0 (Nat.le_refl _)), h2]
  · have hu : replySize (exampleConfig.commandUnrecognized ()).2.length = 28 := by decide +kernel
    have hb : replySize (exampleConfig.welcomeBanner ()).2.length = (exampleConfig.welcomeBanner ()).2.length + 6 := by
      decide +kernel
    simp only [List.map_cons, List.sum_cons, List.map_replicate, List.sum_replicate_nat, hu, hb]
    simp
    omega
  · intro x hx
    rw [h2] at hx
    rcases List.mem_cons.1 hx with rfl | hx
    · exact ⟨example_sendable.welcomeBanner (), by decide +kernel⟩
    · rw [List.mem_replicate] at hx
      rw [hx.2]
      exact ⟨example_sendable.commandUnrecognized (), by decide +kernel⟩

end Verif
