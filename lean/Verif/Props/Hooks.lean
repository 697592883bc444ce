import Verif.Proofs.Hooks
import Verif.Props.SessionEnd
/-
C92: the wording of the replies is inert. What a configuration *says* never changes what the server *does*,
and overriding one of the provided methods changes exactly the replies derived from it.
-/
namespace Verif
open Spec Server
variable {L : IpLib} {S U : Type}

/-- C92. Two configurations with the same callbacks, all of whose replies can be sent: on the same input and the
same behaviour of the outgoing sink (which never fails, unless the replies of both have the same number of
lines), at every point of the execution, both sessions end the same way (or both go on, or panic the same
panic), with the same configuration, user data, open transaction and unread input, and their records agree
event by event, a reply being given by the same method in the same state. -/
theorem c92_inert {C D : Config L S U} (hs : SameCallbacks C D) (hC : Speakable C) (hD : Speakable D)
    (fuel : Nat) (incoming : List (SrcEv Bytes)) (out : BSink) (cfg : S) (user : U)
    (hout : out.plan = [] ∨ SameLineCounts C D) :
    let x := interact C fuel incoming out cfg user
    let y := interact D fuel incoming out cfg user
    x.1 = y.1 ∧ x.2.reader = y.2.reader ∧ x.2.cfg = y.2.cfg ∧ x.2.conn = y.2.conn ∧ x.2.mail = y.2.mail ∧
      SameStory C D x.2.trace y.2.trace := by
  have h := para_session hs hC hD fuel (start incoming out cfg user) (start incoming out cfg user)
    ⟨rfl, rfl, hout, rfl, rfl, rfl, .nil⟩
  exact ⟨h.1, h.2.reader, h.2.cfg, h.2.conn, h.2.mail, h.2.trace⟩

/-- C92. In particular the lines read, the callbacks made, their arguments and their decisions are the same, in
the same order, and as many replies are sent. -/
theorem c92_callbacks {C D : Config L S U} (hs : SameCallbacks C D) (hC : Speakable C) (hD : Speakable D)
    (fuel : Nat) (incoming : List (SrcEv Bytes)) (out : BSink) (cfg : S) (user : U)
    (hout : out.plan = [] ∨ SameLineCounts C D) :
    let x := interact C fuel incoming out cfg user
    let y := interact D fuel incoming out cfg user
    x.2.trace.filter notReply = y.2.trace.filter notReply ∧ x.2.trace.length = y.2.trace.length := by
  have h := c92_inert hs hC hD fuel incoming out cfg user hout
  exact ⟨h.2.2.2.2.2.filter, h.2.2.2.2.2.length⟩

/-- C92. What is left out of the comparison: the replies, and nothing else. -/
theorem c92_not_reply (e : Ev L) : notReply e = false ↔ ∃ r, e = .reply r := by
  cases e <;> simp [notReply]

/-- C92. Which reply an implementation gives on each occasion: its override if it has one, and otherwise `okay()`
where something went well, `bad_sequence()` where a command came out of order, and the fixed texts of the
trait in the other cases, the host name and `banner()` making the welcome. -/
theorem c92_resolution (I : Impl L S U) (h : Hook) (s : S) :
    (∀ f, override I h = some f → says I.toConfig h s = f s) ∧
    (override I h = none → h.IsOkay → says I.toConfig h s = I.okay s) ∧
    (override I h = none → h.IsSequence → says I.toConfig h s = I.badSequence s) ∧
    (override I h = none → h = .welcomeBanner →
      says I.toConfig h s = (⟨220⟩, I.hostname s ++ b!" " ++ I.banner s)) ∧
    (override I h = none → h = .dataOkay →
      says I.toConfig h s = (⟨354⟩, b!"Start mail input; end with <CRLF>.<CRLF>")) ∧
    (override I h = none → h = .commandUnimplemented →
      says I.toConfig h s = (⟨502⟩, b!"Command not implemented")) ∧
    (override I h = none → h = .commandUnrecognized →
      says I.toConfig h s = (⟨500⟩, b!"Command not recognized")) := by
  cases h <;>
    (refine ⟨?_, ?_, ?_, ?_, ?_, ?_, ?_⟩) <;> intros <;>
    simp_all [override, says, Impl.toConfig, Hook.IsOkay, Hook.IsSequence, ReplyCode.serviceReady,
      ReplyCode.startMailInput, ReplyCode.commandUnimplemented, ReplyCode.commandUnrecognized]

/-- C92. The three methods the others are derived from: their override, or the trait's text. -/
theorem c92_roots (I : Impl L S U) (s : S) :
    (∀ f, I.okay? = some f → I.okay s = f s) ∧ (I.okay? = none → I.okay s = (⟨250⟩, b!"Okay")) ∧
    (∀ f, I.badSequence? = some f → I.badSequence s = f s) ∧
    (I.badSequence? = none → I.badSequence s = (⟨503⟩, b!"Bad sequence of commands")) ∧
    (∀ f, I.banner? = some f → I.banner s = f s) ∧ (I.banner? = none → I.banner s = b!"Service ready") := by
  refine ⟨?_, ?_, ?_, ?_, ?_, ?_⟩ <;> intros <;>
    simp_all [Impl.okay, Impl.badSequence, Impl.banner, ReplyCode.okay, ReplyCode.badSequence]

/-- C92. Overriding `okay()` changes the replies to an accepted sender, an accepted recipient and an accepted
message, where these are not overridden themselves, and no other. -/
theorem c92_okay (I : Impl L S U) (f : S → Reply) (h : Hook) :
    (h.IsOkay ∧ override I h = none → says { I with okay? := some f }.toConfig h = f) ∧
    (¬ (h.IsOkay ∧ override I h = none) → says { I with okay? := some f }.toConfig h = says I.toConfig h) := by
  cases h <;> refine ⟨?_, ?_⟩ <;> intro k <;> funext s
  all_goals try (simp_all [Hook.IsOkay, override]; done)
  all_goals try (rfl)
  all_goals
    simp only [Hook.IsOkay, override, true_and] at k
    first
      | (simp [says, Impl.toConfig, Impl.okay, k]; done)
      | (obtain ⟨g, hg⟩ := Option.ne_none_iff_exists'.1 k; simp [says, Impl.toConfig, hg])

/-- C92. Overriding `bad_sequence()` changes the four replies to a command out of order, where these are not
overridden themselves, and no other. -/
theorem c92_bad_sequence (I : Impl L S U) (f : S → Reply) (h : Hook) :
    (h.IsSequence ∧ override I h = none → says { I with badSequence? := some f }.toConfig h = f) ∧
    (¬ (h.IsSequence ∧ override I h = none) →
      says { I with badSequence? := some f }.toConfig h = says I.toConfig h) := by
  cases h <;> refine ⟨?_, ?_⟩ <;> intro k <;> funext s
  all_goals try (simp_all [Hook.IsSequence, override]; done)
  all_goals try (rfl)
  all_goals
    simp only [Hook.IsSequence, override, true_and] at k
    first
      | (simp [says, Impl.toConfig, Impl.badSequence, k]; done)
      | (obtain ⟨g, hg⟩ := Option.ne_none_iff_exists'.1 k; simp [says, Impl.toConfig, hg])

/-- C92. Overriding `banner()` changes the text after the host name in the welcome, unless `welcome_banner()` is
overridden, and no other reply. -/
theorem c92_banner (I : Impl L S U) (f : S → Bytes) (h : Hook) :
    (h = .welcomeBanner ∧ override I h = none →
      ∀ s, says { I with banner? := some f }.toConfig h s = (⟨220⟩, I.hostname s ++ b!" " ++ f s)) ∧
    (¬ (h = .welcomeBanner ∧ override I h = none) →
      says { I with banner? := some f }.toConfig h = says I.toConfig h) := by
  cases h <;> refine ⟨?_, ?_⟩ <;> intro k
  all_goals try (simp_all [override]; done)
  all_goals try (rfl)
  · intro s
    simp only [override, true_and] at k
    simp [says, Impl.toConfig, Impl.banner, k, ReplyCode.serviceReady]
  · simp only [override, true_and] at k
    obtain ⟨g, hg⟩ := Option.ne_none_iff_exists'.1 k
    funext s; simp [says, Impl.toConfig, hg]

/-- C92. An implementation whose own texts can be sent has only replies that can be sent. -/
theorem c92_speakable {I : Impl L S U} (h : SendableTexts I) : Speakable I.toConfig := by
  have hok : ∀ s, Sendable (I.okay s) := by
    intro s
    cases ho : I.okay? with
    | none => rw [(c92_roots I s).2.1 ho]; intro b hb; revert b; decide +kernel
    | some f => rw [(c92_roots I s).1 f ho]; exact h.okay f ho s
  have hbs : ∀ s, Sendable (I.badSequence s) := by
    intro s
    cases ho : I.badSequence? with
    | none => rw [(c92_roots I s).2.2.2.1 ho]; intro b hb; revert b; decide +kernel
    | some f => rw [(c92_roots I s).2.2.1 f ho]; exact h.badSequence f ho s
  have hba : ∀ s, ∀ b ∈ I.banner s, TextByte b := by
    intro s
    cases ho : I.banner? with
    | none => rw [(c92_roots I s).2.2.2.2.2 ho]; intro b hb; revert b; decide +kernel
    | some f => rw [(c92_roots I s).2.2.2.2.1 f ho]; exact h.banner f ho s
  intro k s
  obtain ⟨k1, k2, k3, k4, k5, k6, k7⟩ := c92_resolution I k s
  cases ho : override I k with
  | some f => rw [k1 f ho]; exact h.rest k f ho s
  | none =>
    cases k
    case welcomeBanner =>
      rw [k4 ho rfl]
      intro c hc
      simp only [List.mem_append] at hc
      rcases hc with (hc | hc) | hc
      · exact h.hostname s c hc
      · revert c; decide +kernel
      · exact hba s c hc
    case dataOkay => rw [k5 ho rfl]; intro b hb; revert b; decide +kernel
    case commandUnimplemented => rw [k6 ho rfl]; intro b hb; revert b; decide +kernel
    case commandUnrecognized => rw [k7 ho rfl]; intro b hb; revert b; decide +kernel
    case mailOkay => rw [k2 ho trivial]; exact hok s
    case rcptOkay => rw [k2 ho trivial]; exact hok s
    case mailAccepted => rw [k2 ho trivial]; exact hok s
    all_goals rw [k3 ho trivial]; exact hbs s

/-- C92. Two implementations that differ at most in what they say do the same, whatever the input: same result,
same state, same lines, callbacks, arguments and decisions. -/
theorem c92_implementations {I J : Impl L S U} (hb : SameBehaviour I J) (hI : SendableTexts I) (hJ : SendableTexts J)
    (fuel : Nat) (incoming : List (SrcEv Bytes)) (out : BSink) (cfg : S) (user : U) (hout : out.plan = []) :
    let x := interact I.toConfig fuel incoming out cfg user
    let y := interact J.toConfig fuel incoming out cfg user
    x.1 = y.1 ∧ x.2.reader = y.2.reader ∧ x.2.cfg = y.2.cfg ∧ x.2.conn = y.2.conn ∧ x.2.mail = y.2.mail ∧
      x.2.trace.filter notReply = y.2.trace.filter notReply ∧ x.2.trace.length = y.2.trace.length := by
  have hs : SameCallbacks I.toConfig J.toConfig := by
    refine ⟨?_, hb.filterFrom, hb.filterTo, ?_, hb.handleMail⟩
    · simp only [Impl.toConfig, hb.newMail]
    · simp only [Impl.toConfig, hb.filterData]
  have h := c92_inert hs (c92_speakable hI) (c92_speakable hJ) fuel incoming out cfg user (.inl hout)
  exact ⟨h.1, h.2.1, h.2.2.1, h.2.2.2.1, h.2.2.2.2.1, h.2.2.2.2.2.filter, h.2.2.2.2.2.length⟩

/-- C92. An implementation that overrides nothing is the one of C55. -/
theorem c92_defaults (R : Required L S U) : ({ toRequired := R } : Impl L S U).toConfig = R.toConfig := rfl

/-- C92. The condition that the replies can be sent is needed: with a banner holding a line feed nothing is ever
read, and the session panics. -/
theorem c92_needs_sendable {C : Config L S U} {cfg : S} (h : ¬ Sendable (C.welcomeBanner cfg)) (fuel : Nat)
    (incoming : List (SrcEv Bytes)) (user : U) :
    (interact C fuel incoming ⟨[], []⟩ cfg user).1 = .panic .buildUnwrap ∧
    (interact C fuel incoming ⟨[], []⟩ cfg user).2.trace = [] := by
  have e : ∃ wr, (sendCfg C.welcomeBanner : M L S U Unit) (start incoming ⟨[], []⟩ cfg user) =
      (.panic .buildUnwrap, { (start incoming ⟨[], []⟩ cfg user : World L S U) with writer := wr }) := by
    rcases sendReply_cases (C.welcomeBanner cfg) (start incoming ⟨[], []⟩ cfg user : World L S U) with
      ⟨wr, h1, _⟩ | ⟨wr, new, h1, _⟩ | ⟨wr, _, h1⟩
    · exact absurd h1 h
    · have := (c25_server_panics (C.welcomeBanner cfg) (start incoming ⟨[], []⟩ cfg user : World L S U)
        (by simp [start])).1
        (by
          apply Classical.byContradiction
          intro hn
          exact h fun b hb => Classical.byContradiction fun hb' => hn ⟨b, hb, hb'⟩)
      rw [h1] at this
      simp at this
    · exact ⟨wr, h1⟩
  obtain ⟨wr, e⟩ := e
  unfold interact session
  rw [SM.bind_panic e]
  exact ⟨rfl, rfl⟩

/-! ### A concrete pair -/

/-- The example server, with other words for success and for commands out of order. -/
def politeImpl : Impl exampleIp Unit Unit where
  toRequired := exampleRequired
  okay? := some fun _ => (⟨250⟩, b!"Very well, thank you")
  rcptOkay? := some fun _ => (⟨250⟩, b!"I know them")
  badSequence? := some fun _ => (⟨503⟩, b!"One thing after the other")

theorem polite_sendable : SendableTexts politeImpl := by
  refine ⟨?_, ?_, ?_, ?_, ?_⟩
  · intro s; simp only [politeImpl, exampleRequired]; decide +kernel
  · intro f hf; simp [politeImpl] at hf
  · intro f hf s; simp only [politeImpl, Option.some.injEq] at hf; subst hf; dsimp only [Sendable]; decide +kernel
  · intro f hf s; simp only [politeImpl, Option.some.injEq] at hf; subst hf; dsimp only [Sendable]; decide +kernel
  · intro h f hf s
    cases h <;> simp only [override, politeImpl, Option.some.injEq, reduceCtorEq] at hf
    subst hf; dsimp only [Sendable]; decide +kernel

theorem default_sendable : SendableTexts { toRequired := exampleRequired } := by
  refine ⟨?_, ?_, ?_, ?_, ?_⟩
  · intro s; simp only [exampleRequired]; decide +kernel
  · intro f hf; simp at hf
  · intro f hf; simp at hf
  · intro f hf; simp at hf
  · intro h f hf; cases h <;> simp [override] at hf

/-- C92, a case: the polite server does what the curt one does, on every input. The texts differ on every
occasion that `okay()` or `bad_sequence()` covers; a recipient is answered by the override of its own. -/
theorem c92_example :
    SameBehaviour { toRequired := exampleRequired } politeImpl ∧
    SendableTexts { toRequired := exampleRequired } ∧ SendableTexts politeImpl ∧
    says politeImpl.toConfig .mailOkay () = (⟨250⟩, b!"Very well, thank you") ∧
    says politeImpl.toConfig .rcptOkay () = (⟨250⟩, b!"I know them") ∧
    says politeImpl.toConfig .mailAccepted () = (⟨250⟩, b!"Very well, thank you") ∧
    says politeImpl.toConfig .dataBeforeRcpt () = (⟨503⟩, b!"One thing after the other") ∧
    says politeImpl.toConfig .commandUnrecognized () = (⟨500⟩, b!"Command not recognized") ∧
    SameLineCounts exampleConfig politeImpl.toConfig := by
  refine ⟨⟨rfl, rfl, rfl, rfl, rfl⟩, default_sendable, polite_sendable, rfl, rfl, rfl, rfl, rfl, ?_⟩
  intro h s
  cases s
  cases h <;> decide +kernel

end Verif
