import Verif.Proofs.Readings
import Verif.Model.Ip
/-
C110: what the server makes of a line does not depend on doubtful points of nom.
-/
namespace Verif
open Spec Nom OnLines
variable {L : IpLib} {α β : Type} {S U : Type}

/-! ### The reading of Model/Nom.lean is one of the readings -/

theorem std_many0 {p : Parser α} : Reading.std.many0 p = many0 p := by
  have key : ∀ n i, i.length < n → Reading.std.many0N p n i = many0 p i := by
    intro n
    induction n with
    | zero => intro i hi; omega
    | succ n ih =>
      intro i hn
      rw [many0]
      show (if i = [] then _ else _) = _
      by_cases hi : i = []
      · rw [if_pos hi, if_pos hi]; rfl
      · rw [if_neg hi, if_neg hi]
        unfold Reading.many0Turn
        cases p i with
        | error => rfl
        | incomplete => rfl
        | done r a =>
          by_cases hr : r.length < i.length
          · simp only [hr, if_true, dite_true]
            rw [ih r (by omega)]
            cases many0 p r <;> rfl
          · simp only [hr, if_false, dite_false]; rfl
  funext i
  exact key _ i (Nat.lt_succ_self _)

theorem std_sepLoop {sep : Parser β} {p : Parser α} : ∀ n i, i.length < n →
    Reading.std.sepLoopN sep p n i = sepLoop sep p i := by
  intro n
  induction n with
  | zero => intro i hi; omega
  | succ n ih =>
    intro i hn
    rw [sepLoop]
    unfold Reading.sepLoopN
    cases sep i with
    | error => rfl
    | incomplete => rfl
    | done i2 b =>
      by_cases h2 : i2.length < i.length
      · simp only [h2, if_true, dite_true]
        cases p i2 with
        | error => rfl
        | incomplete => rfl
        | done i3 a =>
          by_cases h3 : i3.length < i2.length
          · simp only [h3, if_true, dite_true]
            rw [ih i3 (by omega)]
            cases sepLoop sep p i3 <;> rfl
          · simp only [h3, if_false, dite_false]; rfl
      · simp only [h2, if_false, dite_false]; rfl

theorem std_nonempty {sep : Parser β} {p : Parser α} :
    Reading.std.separatedNonemptyListComplete sep p = separatedNonemptyListComplete sep p := by
  funext i
  unfold Nom.separatedNonemptyListComplete separatedNonemptyList Reading.separatedNonemptyListComplete Reading.sepRest
  cases complete p i with
  | error => rfl
  | incomplete => rfl
  | done r a =>
    by_cases hr : r.length < i.length
    · simp only [hr, if_true]
      rw [std_sepLoop _ r (Nat.lt_succ_self _)]
      cases sepLoop (complete sep) (complete p) r <;> rfl
    · simp only [hr, if_false]; rfl

theorem std_list {sep : Parser β} {p : Parser α} : Reading.std.separatedList sep p = separatedList sep p := by
  funext i
  unfold Nom.separatedList Reading.separatedList Reading.sepRest
  cases p i with
  | error => rfl
  | incomplete => rfl
  | done r a =>
    by_cases hr : r.length < i.length
    · simp only [hr, if_true]
      rw [std_sepLoop _ r (Nat.lt_succ_self _)]
      cases sepLoop sep p r <;> rfl
    · simp only [hr, if_false]; rfl

theorem std_tag : Reading.std.tag = tag := by
  funext t i
  unfold Reading.tag Reading.tagBy Nom.tag tagBy
  cases compareBy (· == ·) i t <;> rfl

theorem std_tagNoCase : Reading.std.tagNoCase = tagNoCase := by
  funext t i
  unfold Reading.tagNoCase Reading.tagBy Nom.tagNoCase tagBy
  cases compareBy (fun a b => lower a == lower b) i t <;> rfl

theorem std_oneOf : Reading.std.oneOf = oneOf := by
  funext t i; cases i <;> rfl

theorem std_isA : Reading.std.isA = isA := by
  funext t i; cases i <;> rfl

theorem std_take : Reading.std.take = take := rfl

theorem std_takeUntil : Reading.std.takeUntil = takeUntil := by
  funext t i
  unfold Reading.takeUntil Nom.takeUntil
  cases findSubstring t i <;> rfl

theorem std_until : Reading.std.takeUntilAndConsume = takeUntilAndConsume := by
  funext t i
  unfold Reading.takeUntilAndConsume Nom.takeUntilAndConsume
  cases findSubstring t i <;> rfl

theorem std_alt {p q : Parser α} : Reading.std.alt p q = alt p q := by
  funext i
  unfold Reading.alt alt
  cases p i <;> rfl

theorem std_opt {p : Parser α} : Reading.std.opt p = opt p := by
  funext i
  unfold Reading.opt opt
  cases p i <;> rfl

theorem std_hostname : (Reading.std.hostnameP : Parser (Domain L)) = hostnameP := by
  unfold Reading.hostnameP Reading.labelP hostnameP labelP
  simp only [std_nonempty, std_tag, std_until, std_oneOf, std_isA, std_alt, std_opt]

theorem std_email : (Reading.std.emailP : Parser (Email L)) = emailP := by
  unfold Reading.emailP Reading.localpartP Reading.quotedStringP Reading.quotedItemP Reading.dotStringP
    emailP localpartP quotedStringP quotedItemP dotStringP
  simp only [std_nonempty, std_many0, std_hostname, std_tag, std_isA, std_take, std_alt, std_opt]

theorem std_maybeBracketed : (Reading.std.maybeBracketedP : Parser (Email L)) = maybeBracketedP := by
  unfold Reading.maybeBracketedP Reading.addressInPathP Reading.routeP Reading.hopP
    maybeBracketedP addressInPathP routeP hopP
  simp only [std_list, std_email, std_hostname, std_tag, std_alt, std_opt]

theorem std_parameters : Reading.std.parametersP = parametersP := by
  unfold Reading.parametersP Reading.paramP parametersP paramP
  simp only [std_many0, std_oneOf, std_tag, std_isA, std_opt]

theorem std_alternatives : Reading.std.alternatives L = alternatives L := by
  unfold Reading.alternatives Reading.bareArgs Reading.helloArgs Reading.textArgs Reading.optTextArgs Reading.mailArgs
    Reading.rcptArgs
  simp only [std_tagNoCase, std_tag, std_hostname, std_oneOf, std_takeUntil, std_maybeBracketed, std_parameters, std_alt, std_opt]
  rfl

theorem std_reply : Reading.std.replyP = ReplyLine.parser := by
  unfold Reading.replyP ReplyLine.parser
  simp only [std_take, std_tag, std_until, std_alt]

/-- **C110.** Model/Nom.lean is one of the readings: with `Reading.std` the parsers are those of the model. -/
theorem c110_standard :
    (∀ b, (Reading.std.parse b : Except ParseErr (Command L)) = Command.parse b) ∧
    (∀ b, (Reading.std.domainParse b : Except ParseErr (Domain L)) = Domain.parse b) ∧
    (∀ b, (Reading.std.emailParse b : Except ParseErr (Email L)) = Email.parse b) ∧
    (∀ b, Reading.std.replyParse b = ReplyLine.parse b) := by
  have hp : (Reading.std.parse : Bytes → Except ParseErr (Command L)) = Command.parse := by
    funext b
    unfold Reading.parse Command.parse Reading.commandP
    have ha : (Reading.std.alt : Parser (Command L) → Parser (Command L) → Parser (Command L)) = alt := by
      funext p q; exact std_alt
    rw [commandP_foldr, std_alternatives, ha]
  refine ⟨fun b => by rw [hp], fun b => ?_, fun b => ?_, fun b => ?_⟩
  · unfold Reading.domainParse Domain.parse; rw [std_hostname]
  · unfold Reading.emailParse Email.parse; rw [std_email]
  · unfold Reading.replyParse ReplyLine.parse; rw [std_reply]

/-- **C110.** In every reading of nom a line, that is bytes that end in CRLF and hold no other CRLF, is the same command with the
same contents, or no command. -/
theorem c110_lines (R : Reading) {x : Bytes} (hx : NoCrlf x) :
    (R.parse (x ++ crlf) : Except ParseErr (Command L)).toOption =
      (Command.parse (x ++ crlf) : Except ParseErr (Command L)).toOption :=
  toOption_doneOf (command_alike ⟨x, hx, rfl⟩)

theorem reading_handleLine (R : Reading) (C : Config L S U) (fuel : Nat) {l : Bytes} (hl : IsLine l) :
    R.handleLine C fuel l = Server.handleLine C fuel l := by
  obtain ⟨x, hx, rfl⟩ := hl
  have h := c110_lines (L := L) R hx
  unfold Reading.handleLine Server.handleLine
  cases e1 : (R.parse (x ++ crlf) : Except ParseErr (Command L)) <;>
    cases e2 : (Command.parse (x ++ crlf) : Except ParseErr (Command L)) <;>
    rw [e1, e2] at h <;> simp only [Except.toOption] at h <;> first | rfl | cases h
  rename_i c
  cases c <;> rfl

theorem reading_loop (R : Reading) (C : Config L S U) (fuel : Nat) : ∀ n w, R.loop C fuel n w = Server.loop C fuel n w := by
  intro n
  induction n with
  | zero => intro w; rfl
  | succ n ih =>
    intro w
    have ih' : R.loop C fuel n = Server.loop C fuel n := funext ih
    unfold Reading.loop Server.loop
    rw [ih']
    show SM.bind _ _ w = SM.bind _ _ w
    unfold SM.bind
    cases e : Server.nextLine w with
    | mk res w' =>
      cases res with
      | ok l =>
        cases l with
        | none => rfl
        | some l =>
          have hl : IsLine l := by
            unfold Server.nextLine at e
            rcases nextCrlfLine_cases w.reader with ⟨_, s', h, _⟩ | ⟨x, t, s', hx, _, h, _⟩
            · rw [h] at e; simp at e
            · rw [h] at e; simp at e; exact ⟨x, hx, e.1.symm⟩
          show (SM.bind (Server.emit (.line l)) fun _ => SM.bind (R.handleLine C fuel l) fun _ => Server.loop C fuel n) w' = _
          rw [reading_handleLine R C fuel hl]
          rfl
      | _ => rfl

/-- **C110.** In every reading of nom the server does the same in every session: its outcome, its trace, its output and the state it
leaves are those of the model. -/
theorem c110_sessions (R : Reading) (C : Config L S U) (fuel : Nat) (incoming : List (SrcEv Bytes)) (outgoing : BSink) (cfg : S)
    (user : U) : R.interact C fuel incoming outgoing cfg user = Server.interact C fuel incoming outgoing cfg user := by
  unfold Reading.interact Server.interact Server.session
  have : R.loop C fuel fuel = Server.loop C fuel fuel := funext (reading_loop R C fuel fuel)
  rw [this]

theorem code_line {x r a : Bytes} {v : UInt16} (hx : IsLine x) (h : x = a ++ r) (hv : ReplyLine.u16FromStr a = some v) :
    IsLine r := by
  subst h
  refine isLine_rest hx fun c hc => ?_
  unfold ReplyLine.u16FromStr at hv
  simp only at hv
  split at hv
  · cases hv
  · rename_i hd
    have hall : (ReplyLine.stripPlus a).all (fun c => 48 ≤ c && c ≤ 57) = true := by
      rcases Bool.eq_false_or_eq_true ((ReplyLine.stripPlus a).all (fun c => 48 ≤ c && c ≤ 57)) with h | h
      · exact h
      · exact absurd (.inr (by simp [h])) hd
    have hc' : c = 43 ∨ c ∈ ReplyLine.stripPlus a := by
      unfold ReplyLine.stripPlus
      cases a with
      | nil => cases hc
      | cons d a =>
        rcases List.mem_cons.1 hc with rfl | hc
        · by_cases h : c = 43
          · exact .inl h
          · right; simp [h]
        · right
          by_cases h : d = 43 <;> simp [h, hc]
    rcases hc' with rfl | hc'
    · decide
    · have := List.all_eq_true.1 hall c hc'
      have key : ∀ d : UInt8, (decide (48 ≤ d) && decide (d ≤ 57)) = true → d ≠ 13 ∧ d ≠ 10 := by decide +kernel
      exact key c this

/-- **C110.** In every reading of nom a CRLF-terminated line is the same line of a reply, or none. -/
theorem c110_replies (R : Reading) {x : Bytes} (hx : NoCrlf x) :
    (R.replyParse (x ++ crlf)).toOption = (ReplyLine.parse (x ++ crlf)).toOption := by
  refine toOption_doneOf ?_
  have hi : IsLine (x ++ crlf) := ⟨x, hx, rfl⟩
  revert hi
  generalize x ++ crlf = i
  intro hi
  have rest : ∀ code, Same (do
        let isLast ← mapP (alt (tag b!"-") (tag b!" "))
          (fun b => if b.length = 1 ∧ b.head? = some 32 then IsLast.yes else IsLast.no)
        let line ← takeUntilAndConsume b!"\r\n"
        return ReplyLine.mk code isLast line)
      (do
        let isLast ← mapP (R.alt (R.tag b!"-") (R.tag b!" "))
          (fun b => if b.length = 1 ∧ b.head? = some 32 then IsLast.yes else IsLast.no)
        let line ← R.takeUntilAndConsume b!"\r\n"
        return ReplyLine.mk code isLast line) := fun code =>
    same_bind (same_mapP (same_alt (R := R) (p := tag b!"-") (p' := tag b!" ") (same_tag plain) (same_tag plain)))
      (keeps_mapP (eats_alt (eats_tag plain (by decide)) (eats_tag plain (by decide))).keeps) fun _ => by
        intro j hj
        have hs := same_takeUntilAndConsume (R := R) j hj
        cases e : takeUntilAndConsume b!"\r\n" j with
        | incomplete => exact absurd e hs.2
        | error =>
          rw [e] at hs
          rw [bind_of_error e, bind_of_error hs.1]
          exact ⟨rfl, by simp⟩
        | done r a =>
          rw [e] at hs
          rw [bind_of_done e, bind_of_done hs.1]
          exact ⟨rfl, fun h => by cases h⟩
  let head (t : Parser Bytes) : Parser ReplyCode :=
    mapP (verify (mapRes t ReplyLine.u16FromStr) (fun x => decide (x < 1000))) ReplyCode.mk
  have hk : ∀ r a, head (take 3) i = .done r a → IsLine r := by
    intro r a h
    obtain ⟨v, h, _⟩ := mapP_done.1 h
    obtain ⟨h, _⟩ := verify_done.1 h
    obtain ⟨t, h, hv⟩ := mapRes_done.1 h
    exact code_line hi (take_done.1 h).1 hv
  show doneOf (Parser.bind (head (R.take 3)) _ i) = doneOf (Parser.bind (head (take 3)) _ i)
  by_cases h3 : i.length < 3
  · have e1 : take 3 i = .incomplete := by unfold Nom.take; rw [if_pos h3]
    have e2 : R.take 3 i = R.takeShort.res := by unfold Reading.take; rw [if_pos h3]
    have d1 : head (take 3) i = .incomplete := by
      show mapP (verify (mapRes (take 3) _) _) _ i = _
      unfold mapP verify mapRes Parser.bind
      rw [e1]
    have d2 : head (R.take 3) i = R.takeShort.res := by
      show mapP (verify (mapRes (R.take 3) _) _) _ i = _
      unfold mapP verify mapRes Parser.bind
      rw [e2]
      cases R.takeShort <;> rfl
    unfold Parser.bind
    rw [d1, d2]
    cases R.takeShort <;> rfl
  · have e : R.take 3 i = take 3 i := by
      unfold Reading.take Nom.take; rw [if_neg h3, if_neg h3]
    have e' : head (R.take 3) i = head (take 3) i := by
      show mapP (verify (mapRes (R.take 3) _) _) _ i = mapP (verify (mapRes (take 3) _) _) _ i
      unfold mapP verify mapRes Parser.bind
      rw [e]
    unfold Parser.bind
    rw [e']
    cases ed : head (take 3) i with
    | error => rfl
    | incomplete => rfl
    | done r code => exact congrArg doneOf (rest code r (hk r code ed)).1

/-- A reading that differs from the model's in all that concerns the end of the input. -/
def Reading.other : Reading :=
  ⟨.error, .error, .error, .error, .incomplete, some .error, some (some .incomplete), none, none, some .error, true,
    false, false, false⟩

/-- The readings do differ: on the beginning of a command, on bytes after a line, and on which failure a line without a command is. -/
theorem c110_example :
    (errorOf (Reading.other.parse b!"QUI" : Except ParseErr (Command (Ip.stdIp 1))) = some .parseError ∧
      errorOf (Command.parse b!"QUI" : Except ParseErr (Command (Ip.stdIp 1))) = some .incompleteString) ∧
    (errorOf (Reading.other.parse b!"EHLO a\r\n " : Except ParseErr (Command (Ip.stdIp 1))) = none ∧
      errorOf (Command.parse b!"EHLO a\r\n " : Except ParseErr (Command (Ip.stdIp 1))) = some (.didNotConsumeEverything 1)) ∧
    (errorOf (Reading.other.parse b!"EHLO [1\r\n" : Except ParseErr (Command (Ip.stdIp 1))) = some .incompleteString ∧
      errorOf (Command.parse b!"EHLO [1\r\n" : Except ParseErr (Command (Ip.stdIp 1))) = some .parseError) ∧
    (errorOf (Reading.other.parse b!"MAIL FROM:<@[1,@b:c@d>\r\n" : Except ParseErr (Command (Ip.stdIp 1))) = some .incompleteString ∧
      errorOf (Command.parse b!"MAIL FROM:<@[1,@b:c@d>\r\n" : Except ParseErr (Command (Ip.stdIp 1))) = some .parseError) ∧
    errorOf ({ Reading.std with altOn := true }.parse b!"QUI" : Except ParseErr (Command (Ip.stdIp 1))) = some .parseError ∧
    errorOf ({ Reading.other with loopEnds := true, optNone := true }.parse b!"MAIL FROM:<@[1,@b:c@d>\r\n" :
      Except ParseErr (Command (Ip.stdIp 1))) = some .parseError ∧
    errorOf (Reading.other.parse b!"rcpt to:<@a,@b:c@d> E=f\r\n" : Except ParseErr (Command (Ip.stdIp 1))) = none := by
  decide +kernel

end Verif
