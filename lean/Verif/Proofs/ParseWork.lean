import Verif.Model.ParseWork
import Verif.Proofs.Nom
/-
The counters of Model/ParseWork.lean: erasing them gives the parsers of Model/Nom.lean, Model/Command.lean and Model/Reply.lean;
and bounds.
-/
namespace Verif.ParseWork
open Nom (IRes)
variable {α β : Type} {L : IpLib}

/-! ### Erasure -/

/-- The parser without its counter. -/
def er (p : CP α) : Nom.Parser α := fun i => (p i).2

theorem er_bind (p : CP α) (f : α → CP β) : er (p >>= f) = er p >>= fun a => er (f a) := by
  funext i
  show (CP.bind p f i).2 = Nom.Parser.bind (er p) (fun a => er (f a)) i
  unfold CP.bind Nom.Parser.bind er
  rcases p i with ⟨n, x⟩
  cases x <;> rfl

theorem er_pure (a : α) : er (pure a : CP α) = pure a := rfl
theorem er_tag (t : Bytes) : er (tag t) = Nom.tag t := rfl
theorem er_tagNoCase (t : Bytes) : er (tagNoCase t) = Nom.tagNoCase t := rfl
theorem er_crlfP : er crlfP = Nom.crlfP := rfl
theorem er_oneOf (s : Bytes) : er (oneOf s) = Nom.oneOf s := rfl
theorem er_isA (s : Bytes) : er (isA s) = Nom.isA s := rfl
theorem er_eatSpaces : er eatSpaces = Verif.eatSpaces := rfl
theorem er_take (n : Nat) : er (take n) = Nom.take n := rfl
theorem er_takeUntil (t : Bytes) : er (takeUntil t) = Nom.takeUntil t := rfl
theorem er_takeUntilAndConsume (t : Bytes) : er (takeUntilAndConsume t) = Nom.takeUntilAndConsume t := rfl

theorem er_mapP (p : CP α) (f : α → β) : er (mapP p f) = Nom.mapP (er p) f := er_bind p _

theorem er_mapRes (p : CP α) (w : α → Nat) (f : α → Option β) : er (mapRes p w f) = Nom.mapRes (er p) f := by
  refine (er_bind p _).trans ?_
  unfold Nom.mapRes
  congr 1
  funext a i
  unfold er
  cases f a <;> rfl

theorem er_verify (p : CP α) (f : α → Bool) : er (verify p f) = Nom.verify (er p) f := by
  refine (er_bind p _).trans ?_
  unfold Nom.verify
  congr 1
  funext a i
  unfold er
  cases f a <;> rfl

theorem er_opt (p : CP α) : er (opt p) = Nom.opt (er p) := by
  funext i
  unfold er opt Nom.opt
  dsimp only
  rcases p i with ⟨n, x⟩
  cases x <;> rfl

theorem er_complete (p : CP α) : er (complete p) = Nom.complete (er p) := by
  funext i
  unfold er complete Nom.complete
  dsimp only
  rcases p i with ⟨n, x⟩
  cases x <;> rfl

theorem er_alt (p q : CP α) : er (alt p q) = Nom.alt (er p) (er q) := by
  funext i
  unfold er alt Nom.alt
  dsimp only
  rcases p i with ⟨n, x⟩
  cases x <;> rfl

theorem er_preceded (p : CP α) (q : CP β) : er (preceded p q) = Nom.preceded (er p) (er q) := er_bind p _

theorem er_recognize (p : CP α) : er (recognize p) = Nom.recognize (er p) := by
  funext i
  unfold er recognize Nom.recognize
  dsimp only
  rcases p i with ⟨n, x⟩
  cases x <;> rfl

theorem er_many0 (p : CP α) : er (many0 p) = Nom.many0 (er p) := by
  funext i
  show (many0 p i).2 = _
  fun_induction many0 p i <;> rw [Nom.many0] <;> grind [er]

theorem er_sepLoop (sep : CP β) (p : CP α) : er (sepLoop sep p) = Nom.sepLoop (er sep) (er p) := by
  funext i
  show (sepLoop sep p i).2 = _
  fun_induction sepLoop sep p i <;> rw [Nom.sepLoop] <;> grind [er]

theorem er_separatedNonemptyList (sep : CP β) (p : CP α) :
    er (separatedNonemptyList sep p) = Nom.separatedNonemptyList (er sep) (er p) := by
  funext i
  unfold separatedNonemptyList Nom.separatedNonemptyList
  rw [← er_sepLoop]
  unfold er
  dsimp only
  rcases p i with ⟨n, x⟩
  cases x with
  | done r a =>
    unfold sepRest
    dsimp only
    split
    · rcases sepLoop sep p r with ⟨m, y⟩
      cases y <;> rfl
    · rfl
  | error => rfl
  | incomplete => rfl

theorem er_separatedNonemptyListComplete (sep : CP β) (p : CP α) :
    er (separatedNonemptyListComplete sep p) = Nom.separatedNonemptyListComplete (er sep) (er p) := by
  unfold separatedNonemptyListComplete Nom.separatedNonemptyListComplete
  rw [er_separatedNonemptyList, er_complete, er_complete]

theorem er_separatedList (sep : CP β) (p : CP α) :
    er (separatedList sep p) = Nom.separatedList (er sep) (er p) := by
  funext i
  unfold separatedList Nom.separatedList
  rw [← er_sepLoop]
  unfold er
  dsimp only
  rcases p i with ⟨n, x⟩
  cases x with
  | done r a =>
    unfold sepRest
    dsimp only
    split
    · rcases sepLoop sep p r with ⟨m, y⟩
      cases y <;> rfl
    · rfl
  | error => rfl
  | incomplete => rfl

theorem er_labelP : er labelP = Verif.labelP := by
  simp only [labelP, Verif.labelP, er_preceded, er_oneOf, er_opt, er_isA]

theorem er_hostnameP : er (hostnameP : CP (Domain L)) = Verif.hostnameP := by
  simp only [hostnameP, Verif.hostnameP, er_preceded, er_alt, er_mapP, er_mapRes, er_recognize, er_labelP, er_tag,
    er_separatedNonemptyListComplete, er_takeUntilAndConsume]

theorem er_dotStringP : er dotStringP = Verif.dotStringP := by
  simp only [dotStringP, Verif.dotStringP, er_recognize, er_tag, er_separatedNonemptyListComplete, er_isA]

theorem er_quotedItemP : er quotedItemP = Verif.quotedItemP := by
  simp only [quotedItemP, Verif.quotedItemP, er_alt, er_preceded, er_tag, er_verify, er_take]

theorem er_quotedStringP : er quotedStringP = Verif.quotedStringP := by
  simp only [quotedStringP, Verif.quotedStringP, er_recognize, er_bind, er_tag, er_many0, er_quotedItemP, er_pure]

theorem er_emailP : er (emailP : CP (Email L)) = Verif.emailP := by
  simp only [emailP, Verif.emailP, localpartP, Verif.localpartP, er_bind, er_alt, er_quotedStringP, er_dotStringP, er_opt,
    er_complete, er_preceded, er_tag, er_hostnameP, er_pure]

theorem er_routeP : er (routeP L) = Verif.routeP L := by
  have h : er (hopP L) = Verif.hopP L := by
    simp only [hopP, Verif.hopP, er_bind, er_tag, er_hostnameP, er_pure]
  simp only [routeP, Verif.routeP, er_bind, er_tag, er_separatedList, h, er_pure]

theorem er_addressInPathP : er (addressInPathP : CP (Email L)) = Verif.addressInPathP := by
  simp only [addressInPathP, Verif.addressInPathP, er_preceded, er_opt, er_routeP, er_emailP]

theorem er_maybeBracketedP : er (maybeBracketedP : CP (Email L)) = Verif.maybeBracketedP := by
  simp only [maybeBracketedP, Verif.maybeBracketedP, er_alt, er_bind, er_tag, er_addressInPathP, er_pure]

theorem er_paramP : er paramP = Verif.paramP := by
  simp only [paramP, Verif.paramP, er_bind, er_oneOf, er_eatSpaces, er_recognize, er_preceded, er_opt, er_isA, er_complete,
    er_tag, er_pure]

theorem er_parametersP : er parametersP = Verif.parametersP := by
  simp only [parametersP, Verif.parametersP, er_bind, er_many0, er_paramP, er_pure]
  rfl

theorem er_commandP : er (commandP : CP (Command L)) = Verif.commandP := by
  simp only [commandP, Verif.commandP, dataArgs, ehloArgs, expnArgs, heloArgs, helpArgs, mailArgs, noopArgs, quitArgs, rcptArgs,
    rsetArgs, vrfyArgs, Verif.dataArgs, Verif.ehloArgs, Verif.expnArgs, Verif.heloArgs, Verif.helpArgs, Verif.mailArgs,
    Verif.noopArgs, Verif.quitArgs, Verif.rcptArgs, Verif.rsetArgs, Verif.vrfyArgs, er_alt, er_bind, er_pure, er_tag, er_tagNoCase,
    er_crlfP, er_oneOf, er_eatSpaces, er_takeUntil, er_opt, er_mapP, er_hostnameP, er_maybeBracketedP, er_parametersP]

theorem er_replyP : er replyP = ReplyLine.parser := by
  simp only [replyP, ReplyLine.parser, er_bind, er_mapP, er_verify, er_mapRes, er_take, er_alt, er_tag, er_takeUntilAndConsume,
    er_pure]

/-! ### Bounds -/

/-- At most `A` units per byte of the input, and `B`; and the rest is no longer than the input. -/
def Bd (p : CP α) (A B : Nat) : Prop :=
  ∀ i, (p i).1 ≤ A * i.length + B ∧ ∀ r a, (p i).2 = .done r a → r.length ≤ i.length

/-- A success costs at most `A` units per consumed byte, and `B`; a failure at most `F` per byte of the input, and `G`. -/
def Lin (p : CP α) (A B F G : Nat) : Prop :=
  ∀ i, (∀ r a, (p i).2 = .done r a → r.length ≤ i.length ∧ (p i).1 + A * r.length ≤ A * i.length + B) ∧
    ((∀ r a, (p i).2 ≠ .done r a) → (p i).1 ≤ F * i.length + G)

theorem Bd.mono {p : CP α} {A B A' B' : Nat} (h : Bd p A B) (hA : A ≤ A') (hB : B ≤ B') : Bd p A' B' := fun i =>
  ⟨Nat.le_trans (h i).1 (Nat.add_le_add (Nat.mul_le_mul_right _ hA) hB), (h i).2⟩

theorem Lin.mono {p : CP α} {A B F G B' F' G' : Nat} (h : Lin p A B F G) (hB : B ≤ B') (hF : F ≤ F')
    (hG : G ≤ G') : Lin p A B' F' G' := fun i =>
  ⟨fun r a e => ⟨((h i).1 r a e).1, Nat.le_trans ((h i).1 r a e).2 (Nat.add_le_add_left hB _)⟩,
    fun e => Nat.le_trans ((h i).2 e) (Nat.add_le_add (Nat.mul_le_mul_right _ hF) hG)⟩

/-- More per byte is still a bound. -/
theorem Lin.scale {p : CP α} {A B F G A' : Nat} (h : Lin p A B F G) (hA : A ≤ A') : Lin p A' B F G := fun i =>
  ⟨fun r a e => by
    obtain ⟨h1, h2⟩ := (h i).1 r a e
    refine ⟨h1, ?_⟩
    obtain ⟨k, rfl⟩ := Nat.exists_eq_add_of_le hA
    have := Nat.mul_le_mul_left k h1
    rw [Nat.add_mul, Nat.add_mul]
    omega, (h i).2⟩

theorem Lin.bd {p : CP α} {A B F G : Nat} (h : Lin p A B F G) : Bd p (A + F) (B + G) := by
  intro i
  rw [Nat.add_mul]
  cases hx : (p i).2 with
  | done r a =>
    obtain ⟨h1, h2⟩ := (h i).1 r a hx
    exact ⟨by omega, fun r' a' e => by cases e; exact h1⟩
  | error =>
    have := (h i).2 (by simp [hx])
    exact ⟨by omega, nofun⟩
  | incomplete =>
    have := (h i).2 (by simp [hx])
    exact ⟨by omega, nofun⟩

theorem bind_work (p : CP α) (f : α → CP β) (i : Bytes) :
    ((∀ s a, (p i).2 ≠ .done s a) ∧ ((p >>= f) i).1 = (p i).1 ∧ ∀ r b, ((p >>= f) i).2 ≠ .done r b) ∨
    ∃ s a, (p i).2 = .done s a ∧ ((p >>= f) i) = ((p i).1 + (f a s).1, (f a s).2) := by
  show (_ ∧ (CP.bind p f i).1 = (p i).1 ∧ ∀ r b, (CP.bind p f i).2 ≠ _) ∨ ∃ s a, _ ∧ CP.bind p f i = _
  unfold CP.bind
  rcases p i with ⟨n, x⟩
  cases x with
  | done r a => exact .inr ⟨r, a, rfl, rfl⟩
  | error => exact .inl ⟨nofun, rfl, nofun⟩
  | incomplete => exact .inl ⟨nofun, rfl, nofun⟩

theorem Bd.bind {p : CP α} {f : α → CP β} {A B A' B' : Nat} (h : Bd p A B) (h' : ∀ a, Bd (f a) A' B') :
    Bd (p >>= f) (A + A') (B + B') := by
  intro i
  have h1 := h i
  rw [Nat.add_mul]
  rcases bind_work p f i with ⟨_, h2, h3⟩ | ⟨s, a, h2, h3⟩
  · exact ⟨by omega, fun r b e => absurd e (h3 r b)⟩
  · have h4 := h1.2 _ _ h2
    have h5 := h' a s
    have := Nat.mul_le_mul_left A' h4
    rw [h3]
    exact ⟨by dsimp only; omega, fun r b e => Nat.le_trans (h5.2 r b e) h4⟩

theorem Lin.bind {p : CP α} {f : α → CP β} {A B F G B' F' G' : Nat} (h : Lin p A B F G) (h' : ∀ a, Lin (f a) A B' F' G') :
    Lin (p >>= f) A (B + B') (A + F + F') (B + G + G') := by
  intro i
  have h1 := h i
  rw [Nat.add_mul, Nat.add_mul]
  rcases bind_work p f i with ⟨h0, h2, h3⟩ | ⟨s, a, h2, h3⟩
  · have := h1.2 h0
    exact ⟨fun r b e => absurd e (h3 r b), fun _ => by omega⟩
  · obtain ⟨h4, h4'⟩ := h1.1 _ _ h2
    have h5 := h' a s
    have := Nat.mul_le_mul_left F' h4
    rw [h3]
    refine ⟨fun r b e => ?_, fun e => ?_⟩
    · obtain ⟨h6, h7⟩ := h5.1 r b e
      exact ⟨Nat.le_trans h6 h4, by dsimp only; omega⟩
    · have := h5.2 e
      dsimp only
      omega

theorem bd_pure (a : α) : Bd (pure a : CP α) 0 0 := fun i =>
  ⟨Nat.zero_le _, fun r a e => by cases e; exact Nat.le_refl _⟩

theorem lin_pure (a : α) (A : Nat) : Lin (pure a : CP α) A 0 0 0 := fun i =>
  ⟨fun r a e => by cases e; exact ⟨Nat.le_refl _, by show 0 + _ ≤ _; omega⟩, fun e => absurd rfl (e i a)⟩

theorem lin_tag (t : Bytes) : Lin (tag t) 0 (1 + t.length) 0 (1 + t.length) := by
  intro i
  refine ⟨fun r a e => ⟨?_, ?_⟩, fun _ => ?_⟩
  · have := Nom.tag_done.1 e
    rw [this.1]; simp
  · show 1 + min _ _ + _ ≤ _; omega
  · show 1 + min _ _ ≤ _; omega

theorem lin_tagNoCase (t : Bytes) : Lin (tagNoCase t) 0 (1 + t.length) 0 (1 + t.length) := by
  intro i
  refine ⟨fun r a e => ⟨?_, ?_⟩, fun _ => ?_⟩
  · have := (Nom.tagNoCase_done.1 e).1
    rw [this]; simp
  · show 1 + min _ _ + _ ≤ _; omega
  · show 1 + min _ _ ≤ _; omega

theorem lin_oneOf (s : Bytes) : Lin (oneOf s) 0 1 0 1 := by
  intro i
  refine ⟨fun r a e => ⟨?_, by show 1 + _ ≤ _; omega⟩, fun _ => by show 1 ≤ _; omega⟩
  have := (Nom.oneOf_done.1 e).1
  rw [this]; simp

theorem lin_eatSpaces : Lin eatSpaces 1 1 0 0 := by
  intro i
  have h : (eatSpaces i).2 = .done (i.dropWhile spacesC.contains) (i.takeWhile spacesC.contains) := rfl
  refine ⟨fun r a e => ?_, fun e => absurd h (e _ _)⟩
  rw [h] at e
  cases e
  have := congrArg List.length (List.takeWhile_append_dropWhile (p := spacesC.contains) (l := i))
  rw [List.length_append] at this
  refine ⟨by omega, ?_⟩
  show 1 + _ + _ ≤ _
  omega

theorem lin_isA (s : Bytes) : Lin (isA s) 1 1 0 1 := by
  intro i
  have hl := congrArg List.length (List.takeWhile_append_dropWhile (p := s.contains) (l := i))
  rw [List.length_append] at hl
  cases i with
  | nil => exact ⟨fun r a e => by cases e; exact ⟨Nat.le_refl _, by show 1 + 0 + 1 * 0 ≤ 1 * 0 + 1; decide⟩, fun e => absurd rfl (e [] [])⟩
  | cons c i =>
    by_cases hc : s.contains c
    · have h : (isA s (c :: i)).2 = .done ((c :: i).dropWhile s.contains) ((c :: i).takeWhile s.contains) := by
        show Nom.isA s (c :: i) = _
        simp only [Nom.isA, hc, if_true]
      refine ⟨fun r a e => ?_, fun e => absurd h (e _ _)⟩
      rw [h] at e
      cases e
      refine ⟨by omega, ?_⟩
      show 1 + _ + _ ≤ _
      omega
    · have h : (isA s (c :: i)).2 = .error := by
        show Nom.isA s (c :: i) = _
        unfold Nom.isA
        exact if_neg hc
      refine ⟨fun r a e => (nomatch h.symm.trans e), fun _ => ?_⟩
      show 1 + _ ≤ _
      rw [List.takeWhile_cons_of_neg hc]
      simp

theorem lin_take (n : Nat) : Lin (take n) 0 1 0 1 := by
  intro i
  refine ⟨fun r a e => ⟨?_, by show 1 + _ ≤ _; omega⟩, fun _ => by show 1 ≤ _; omega⟩
  change Nom.take n i = _ at e
  unfold Nom.take at e
  split at e
  · cases e
  · cases e; simp

theorem findSubstring_lt {t i : Bytes} {n : Nat} (ht : t ≠ []) (h : Nom.findSubstring t i = some n) : n < i.length := by
  induction i generalizing n with
  | nil => cases t <;> simp_all [Nom.findSubstring]
  | cons c r ih =>
    rw [Nom.findSubstring] at h
    split at h
    · cases h; simp
    · obtain ⟨m, hm, rfl⟩ := Option.map_eq_some_iff.1 h
      have := ih hm
      simp; omega

theorem findWork_le {t : Bytes} (i : Bytes) (ht : t ≠ []) : findWork t i ≤ t.length * i.length := by
  unfold findWork
  split
  · rename_i n h
    exact Nat.mul_le_mul_left _ (findSubstring_lt ht h)
  · exact Nat.le_refl _

theorem bd_takeUntil {t : Bytes} (ht : t ≠ []) : Bd (takeUntil t) t.length 1 := by
  intro i
  have := findWork_le i ht
  refine ⟨by show 1 + _ ≤ _; omega, fun r a e => ?_⟩
  change Nom.takeUntil t i = _ at e
  unfold Nom.takeUntil at e
  split at e
  · cases e
  · split at e
    · cases e
    · cases e; simp

theorem bd_takeUntilAndConsume {t : Bytes} (ht : t ≠ []) : Bd (takeUntilAndConsume t) t.length 1 := by
  intro i
  have := findWork_le i ht
  refine ⟨by show 1 + _ ≤ _; omega, fun r a e => ?_⟩
  change Nom.takeUntilAndConsume t i = _ at e
  unfold Nom.takeUntilAndConsume at e
  split at e
  · cases e
  · split at e
    · cases e
    · cases e; simp

theorem Bd.mapP {p : CP α} {f : α → β} {A B : Nat} (h : Bd p A B) : Bd (mapP p f) A B :=
  Bd.bind h fun a => bd_pure (f a)

theorem Lin.mapP {p : CP α} {f : α → β} {A B F G : Nat} (h : Lin p A B F G) : Lin (ParseWork.mapP p f) A B F G := by
  intro i
  rcases bind_work p (fun a => pure (f a)) i with ⟨h0, h2, h3⟩ | ⟨s, a, h2, h3⟩
  · exact ⟨fun r b e => absurd e (h3 r b), fun _ => by rw [show ParseWork.mapP p f = p >>= fun a => pure (f a) from rfl, h2]; exact (h i).2 h0⟩
  · rw [show ParseWork.mapP p f = p >>= fun a => pure (f a) from rfl, h3]
    exact ⟨fun r b e => by cases e; exact (h i).1 _ _ h2, fun e => absurd rfl (e s (f a))⟩

theorem Lin.preceded {p : CP α} {q : CP β} {A B F G B' F' G' : Nat} (h : Lin p A B F G) (h' : Lin q A B' F' G') :
    Lin (preceded p q) A (B + B') (A + F + F') (B + G + G') := Lin.bind h fun _ => h'

theorem Bd.preceded {p : CP α} {q : CP β} {A B A' B' : Nat} (h : Bd p A B) (h' : Bd q A' B') :
    Bd (preceded p q) (A + A') (B + B') := Bd.bind h fun _ => h'

theorem opt_cases (p : CP α) (i : Bytes) :
    (∃ r a, (p i).2 = .done r a ∧ opt p i = ((p i).1, .done r (some a))) ∨
    ((p i).2 = .error ∧ opt p i = ((p i).1, .done i none)) ∨
    ((p i).2 = .incomplete ∧ opt p i = ((p i).1, .incomplete)) := by
  unfold opt
  rcases p i with ⟨n, x⟩
  cases x <;> simp

theorem Bd.opt {p : CP α} {A B : Nat} (h : Bd p A B) : Bd (opt p) A B := by
  intro i
  rcases opt_cases p i with ⟨r, a, h1, h2⟩ | ⟨h1, h2⟩ | ⟨h1, h2⟩ <;> rw [h2]
  · exact ⟨(h i).1, fun r' a' e => by cases e; exact (h i).2 _ _ h1⟩
  · exact ⟨(h i).1, fun r' a' e => by cases e; exact Nat.le_refl _⟩
  · exact ⟨(h i).1, nofun⟩

/-- An optional part costs what a failure costs; this must not depend on the input. -/
theorem Lin.opt {p : CP α} {A B G : Nat} (h : Lin p A B 0 G) : Lin (opt p) A (B + G) 0 G := by
  intro i
  rcases opt_cases p i with ⟨r, a, h1, h2⟩ | ⟨h1, h2⟩ | ⟨h1, h2⟩ <;> rw [h2]
  · refine ⟨fun r' a' e => ?_, fun e => absurd rfl (e _ _)⟩
    cases e
    have := (h i).1 _ _ h1
    exact ⟨this.1, by dsimp only; omega⟩
  · have := (h i).2 (by simp [h1])
    refine ⟨fun r' a' e => ?_, fun e => absurd rfl (e _ _)⟩
    cases e
    exact ⟨Nat.le_refl _, by dsimp only; omega⟩
  · exact ⟨nofun, fun _ => (h i).2 (by simp [h1])⟩

theorem complete_cases (p : CP α) (i : Bytes) :
    complete p i = p i ∨ ((p i).2 = .incomplete ∧ complete p i = ((p i).1, .error)) := by
  unfold complete
  rcases p i with ⟨n, x⟩
  cases x <;> simp

theorem Bd.complete {p : CP α} {A B : Nat} (h : Bd p A B) : Bd (complete p) A B := by
  intro i
  rcases complete_cases p i with h1 | ⟨h1, h2⟩
  · rw [h1]; exact h i
  · rw [h2]; exact ⟨(h i).1, nofun⟩

theorem Lin.complete {p : CP α} {A B F G : Nat} (h : Lin p A B F G) : Lin (complete p) A B F G := by
  intro i
  rcases complete_cases p i with h1 | ⟨h1, h2⟩
  · rw [h1]; exact h i
  · rw [h2]; exact ⟨nofun, fun _ => (h i).2 (by simp [h1])⟩

theorem complete_ne (p : CP α) (i : Bytes) : (complete p i).2 ≠ .incomplete := by
  rcases complete_cases p i with h1 | ⟨h1, h2⟩
  · unfold ParseWork.complete
    rcases p i with ⟨n, x⟩
    cases x <;> simp
  · rw [h2]; simp

theorem alt_cases (p q : CP α) (i : Bytes) :
    ((p i).2 ≠ .error ∧ alt p q i = p i) ∨ ((p i).2 = .error ∧ alt p q i = ((p i).1 + (q i).1, (q i).2)) := by
  unfold alt
  rcases p i with ⟨n, x⟩
  cases x <;> simp

theorem Bd.alt {p q : CP α} {A B A' B' : Nat} (h : Bd p A B) (h' : Bd q A' B') : Bd (alt p q) (A + A') (B + B') := by
  intro i
  have h1 := h i
  have h2 := h' i
  rw [Nat.add_mul]
  rcases alt_cases p q i with ⟨_, h3⟩ | ⟨_, h3⟩ <;> rw [h3]
  · exact ⟨by omega, h1.2⟩
  · exact ⟨by dsimp only; omega, h2.2⟩

/-- Alternatives, if the failure of the first costs a constant. -/
theorem Lin.alt {p q : CP α} {A B G B' F' G' : Nat} (h : Lin p A B 0 G) (h' : Lin q A B' F' G') :
    Lin (alt p q) A (B + B' + G) F' (G + G') := by
  intro i
  rcases alt_cases p q i with ⟨hn, h3⟩ | ⟨he, h3⟩ <;> rw [h3]
  · refine ⟨fun r a e => ?_, fun e => ?_⟩
    · have := (h i).1 r a e
      exact ⟨this.1, by omega⟩
    · have := (h i).2 e
      omega
  · have h1 := (h i).2 (by simp [he])
    refine ⟨fun r a e => ?_, fun e => ?_⟩
    · have := (h' i).1 r a e
      exact ⟨this.1, by dsimp only; omega⟩
    · have := (h' i).2 e
      dsimp only
      omega

theorem recognize_cases (p : CP α) (i : Bytes) :
    (∃ r a b, (p i).2 = .done r a ∧ recognize p i = ((p i).1, .done r b)) ∨
    ((∀ r a, (p i).2 ≠ .done r a) ∧ (recognize p i).1 = (p i).1 ∧ ∀ r a, (recognize p i).2 ≠ .done r a) := by
  unfold recognize
  rcases p i with ⟨n, x⟩
  cases x <;> simp

theorem Bd.recognize {p : CP α} {A B : Nat} (h : Bd p A B) : Bd (recognize p) A B := by
  intro i
  rcases recognize_cases p i with ⟨r, a, b, h1, h2⟩ | ⟨h0, h1, h2⟩
  · rw [h2]; exact ⟨(h i).1, fun r' a' e => by cases e; exact (h i).2 _ _ h1⟩
  · rw [h1]; exact ⟨(h i).1, fun r' a' e => absurd e (h2 _ _)⟩

theorem Lin.recognize {p : CP α} {A B F G : Nat} (h : Lin p A B F G) : Lin (recognize p) A B F G := by
  intro i
  rcases recognize_cases p i with ⟨r, a, b, h1, h2⟩ | ⟨h0, h1, h2⟩
  · rw [h2]; exact ⟨fun r' a' e => by cases e; exact (h i).1 _ _ h1, fun e => absurd rfl (e _ _)⟩
  · rw [h1]; exact ⟨fun r' a' e => absurd e (h2 _ _), fun _ => (h i).2 h0⟩

theorem Bd.mapRes {p : CP α} {w : α → Nat} {f : α → Option β} {A B A' B' : Nat} (h : Bd p A B)
    (hw : ∀ i r a, (p i).2 = .done r a → w a ≤ A' * i.length + B') : Bd (mapRes p w f) (A + A') (B + B') := by
  intro i
  rw [Nat.add_mul]
  have h1 := h i
  let g : α → CP β := fun a i => (w a, match f a with | some b => .done i b | none => .error)
  rcases bind_work p g i with ⟨h0, h2, h3⟩ | ⟨s, a, h2, h3⟩
  · change (ParseWork.mapRes p w f i).1 = _ at h2
    exact ⟨by omega, fun r b e => absurd e (h3 r b)⟩
  · change ParseWork.mapRes p w f i = _ at h3
    have := hw i s a h2
    rw [h3]
    refine ⟨by show _ + w a ≤ _; omega, fun r b e => ?_⟩
    change (match f a with | some b => IRes.done s b | none => .error) = .done r b at e
    cases hf : f a <;> rw [hf] at e <;> cases e
    exact h1.2 _ _ h2

theorem Lin.verify {p : CP α} {f : α → Bool} {A B F G : Nat} (h : Lin p A B F G) :
    Lin (verify p f) A (B + 1) (A + F) (B + G + 1) := by
  intro i
  rw [Nat.add_mul]
  let g : α → CP α := fun a i => (1, if f a then .done i a else .error)
  rcases bind_work p g i with ⟨h0, h2, h3⟩ | ⟨s, a, h2, h3⟩
  · change (ParseWork.verify p f i).1 = _ at h2
    have := (h i).2 h0
    exact ⟨fun r b e => absurd e (h3 r b), fun _ => by omega⟩
  · change ParseWork.verify p f i = _ at h3
    have h1 := (h i).1 s a h2
    rw [h3]
    refine ⟨fun r b e => ?_, fun _ => by show _ + 1 ≤ _; omega⟩
    change (if f a then IRes.done s a else .error) = .done r b at e
    split at e <;> cases e
    exact ⟨h1.1, by show _ + 1 + _ ≤ _; omega⟩

/-! ### Loops -/

theorem bd_many0 {p : CP α} {A B F G : Nat} (h : Lin p A B F G) :
    Bd (many0 p) (A + F + B + 1) (B + G + 1) := by
  intro i
  rw [Nat.add_mul, Nat.add_mul, Nat.add_mul, Nat.one_mul]
  fun_induction many0 p i with
  | case1 => exact ⟨by dsimp only; omega, fun r a e => by cases e; exact Nat.le_refl _⟩
  | case2 i hi n h1 =>
    have := (h i).2 (by simp [h1])
    rw [h1] at this
    exact ⟨by dsimp only at this ⊢; omega, fun r a e => by cases e; exact Nat.le_refl _⟩
  | case3 i hi n h1 =>
    have := (h i).2 (by simp [h1])
    rw [h1] at this
    exact ⟨by dsimp only at this ⊢; omega, nofun⟩
  | case4 i hi n r a h1 hlt m r' as h2 ih =>
    obtain ⟨h3, h4⟩ := (h i).1 r a (by rw [h1])
    rw [h1] at h4
    rw [h2] at ih
    have := Nat.mul_le_mul_left F h3
    have h5 := Nat.mul_le_mul_left B hlt
    rw [Nat.mul_succ] at h5
    exact ⟨by have := ih.1; dsimp only at this h4 ⊢; omega,
      fun r2 a2 e => by cases e; exact Nat.le_trans (ih.2 _ _ rfl) h3⟩
  | case5 i hi n r a h1 hlt m h2 ih =>
    obtain ⟨h3, h4⟩ := (h i).1 r a (by rw [h1])
    rw [h1] at h4
    rw [h2] at ih
    have := Nat.mul_le_mul_left F h3
    have h5 := Nat.mul_le_mul_left B hlt
    rw [Nat.mul_succ] at h5
    exact ⟨by have := ih.1; dsimp only at this h4 ⊢; omega, nofun⟩
  | case6 i hi n r a h1 hlt m h2 ih =>
    obtain ⟨h3, h4⟩ := (h i).1 r a (by rw [h1])
    rw [h1] at h4
    rw [h2] at ih
    have := Nat.mul_le_mul_left F h3
    have h5 := Nat.mul_le_mul_left B hlt
    rw [Nat.mul_succ] at h5
    exact ⟨by have := ih.1; dsimp only at this h4 ⊢; omega, nofun⟩
  | case7 i hi n r a h1 hlt =>
    obtain ⟨h3, h4⟩ := (h i).1 r a (by rw [h1])
    rw [h1] at h4
    exact ⟨by dsimp only at h4 ⊢; omega, nofun⟩

/-- A list whose separator costs a constant. -/
theorem bd_sepLoop {sep : CP β} {p : CP α} {K A B F G : Nat} (hs : Lin sep 0 K 0 K) (h : Lin p A B F G) :
    Bd (sepLoop sep p) (A + F + B + K + 1) (K + B + G + 1) := by
  intro i
  rw [Nat.add_mul, Nat.add_mul, Nat.add_mul, Nat.add_mul, Nat.one_mul]
  have hk : ∀ i, (sep i).1 ≤ K := by
    intro i
    cases hx : (sep i).2 with
    | done r a => have := (hs i).1 r a hx; omega
    | error => have := (hs i).2 (by simp [hx]); omega
    | incomplete => have := (hs i).2 (by simp [hx]); omega
  fun_induction sepLoop sep p i with
  | case1 i n h1 =>
    have := hk i
    rw [h1] at this
    exact ⟨by dsimp only at this ⊢; omega, fun r a e => by cases e; exact Nat.le_refl _⟩
  | case2 i n h1 =>
    have := hk i
    rw [h1] at this
    exact ⟨by dsimp only at this ⊢; omega, nofun⟩
  | case3 i n i2 b h1 hlt m h2 =>
    have h3 := hk i
    rw [h1] at h3
    have h4 := (h i2).2 (by simp [h2])
    rw [h2] at h4
    have := Nat.mul_le_mul_left F (Nat.le_of_lt hlt)
    exact ⟨by dsimp only at h3 h4 ⊢; omega, fun r a e => by cases e; exact Nat.le_refl _⟩
  | case4 i n i2 b h1 hlt m h2 =>
    have h3 := hk i
    rw [h1] at h3
    have h4 := (h i2).2 (by simp [h2])
    rw [h2] at h4
    have := Nat.mul_le_mul_left F (Nat.le_of_lt hlt)
    exact ⟨by dsimp only at h3 h4 ⊢; omega, nofun⟩
  | case5 i n i2 b h1 hlt m i3 a h2 hlt3 k r as hr ih =>
    have h3 := hk i
    rw [h1] at h3
    obtain ⟨h4, h5⟩ := (h i2).1 i3 a (by rw [h2])
    rw [h2] at h5
    rw [hr] at ih
    have g0 : i3.length < i.length := Nat.lt_trans hlt3 hlt
    have g1 := Nat.mul_le_mul_left F (Nat.le_of_lt g0)
    have g2 := Nat.mul_le_mul_left A (Nat.le_of_lt hlt)
    have g3 := Nat.mul_le_mul_left B g0
    have g4 := Nat.mul_le_mul_left K g0
    rw [Nat.mul_succ] at g3 g4
    exact ⟨by have := ih.1; dsimp only at this h3 h5 ⊢; omega,
      fun r2 a2 e => by cases e; exact Nat.le_trans (ih.2 _ _ rfl) (Nat.le_of_lt g0)⟩
  | case6 i n i2 b h1 hlt m i3 a h2 hlt3 k hr ih =>
    have h3 := hk i
    rw [h1] at h3
    obtain ⟨h4, h5⟩ := (h i2).1 i3 a (by rw [h2])
    rw [h2] at h5
    rw [hr] at ih
    have g0 : i3.length < i.length := Nat.lt_trans hlt3 hlt
    have g1 := Nat.mul_le_mul_left F (Nat.le_of_lt g0)
    have g2 := Nat.mul_le_mul_left A (Nat.le_of_lt hlt)
    have g3 := Nat.mul_le_mul_left B g0
    have g4 := Nat.mul_le_mul_left K g0
    rw [Nat.mul_succ] at g3 g4
    exact ⟨by have := ih.1; dsimp only at this h3 h5 ⊢; omega, nofun⟩
  | case7 i n i2 b h1 hlt m i3 a h2 hlt3 k hr ih =>
    have h3 := hk i
    rw [h1] at h3
    obtain ⟨h4, h5⟩ := (h i2).1 i3 a (by rw [h2])
    rw [h2] at h5
    rw [hr] at ih
    have g0 : i3.length < i.length := Nat.lt_trans hlt3 hlt
    have g1 := Nat.mul_le_mul_left F (Nat.le_of_lt g0)
    have g2 := Nat.mul_le_mul_left A (Nat.le_of_lt hlt)
    have g3 := Nat.mul_le_mul_left B g0
    have g4 := Nat.mul_le_mul_left K g0
    rw [Nat.mul_succ] at g3 g4
    exact ⟨by have := ih.1; dsimp only at this h3 h5 ⊢; omega, nofun⟩
  | case8 i n i2 b h1 hlt m i3 a h2 hlt3 =>
    have h3 := hk i
    rw [h1] at h3
    obtain ⟨h4, h5⟩ := (h i2).1 i3 a (by rw [h2])
    rw [h2] at h5
    have g2 := Nat.mul_le_mul_left A (Nat.le_of_lt hlt)
    exact ⟨by dsimp only at h3 h5 ⊢; omega, fun r a e => by cases e; exact Nat.le_refl _⟩
  | case9 i n i2 b h1 hlt =>
    have := hk i
    rw [h1] at this
    exact ⟨by dsimp only at this ⊢; omega, fun r a e => by cases e; exact Nat.le_refl _⟩

/-! ### Sequences with cheap parts -/

/-- A first part that costs a constant. -/
theorem Lin.bind0 {p : CP α} {f : α → CP β} {A B G B' F' G' : Nat} (h : Lin p 0 B 0 G) (h' : ∀ a, Lin (f a) A B' F' G') :
    Lin (p >>= f) A (B + B') F' (B + G + G') := by
  intro i
  have h1 := h i
  rcases bind_work p f i with ⟨h0, h2, h3⟩ | ⟨s, a, h2, h3⟩
  · have := h1.2 h0
    exact ⟨fun r b e => absurd e (h3 r b), fun _ => by omega⟩
  · obtain ⟨h4, h4'⟩ := h1.1 _ _ h2
    have h5 := h' a s
    have g1 := Nat.mul_le_mul_left F' h4
    have g2 := Nat.mul_le_mul_left A h4
    rw [h3]
    refine ⟨fun r b e => ?_, fun e => ?_⟩
    · obtain ⟨h6, h7⟩ := h5.1 r b e
      exact ⟨Nat.le_trans h6 h4, by dsimp only; omega⟩
    · have := h5.2 e
      dsimp only
      omega

/-- A second part that never fails. -/
theorem Lin.bind_total {p : CP α} {f : α → CP β} {A B F G B' F' G' : Nat} (h : Lin p A B F G)
    (h' : ∀ a, Lin (f a) A B' F' G') (ht : ∀ a i, ∃ r b, (f a i).2 = .done r b) : Lin (p >>= f) A (B + B') F G := by
  intro i
  have h1 := h i
  rcases bind_work p f i with ⟨h0, h2, h3⟩ | ⟨s, a, h2, h3⟩
  · have := h1.2 h0
    exact ⟨fun r b e => absurd e (h3 r b), fun _ => by omega⟩
  · obtain ⟨h4, h4'⟩ := h1.1 _ _ h2
    have h5 := h' a s
    rw [h3]
    refine ⟨fun r b e => ?_, fun e => ?_⟩
    · obtain ⟨h6, h7⟩ := h5.1 r b e
      exact ⟨Nat.le_trans h6 h4, by dsimp only; omega⟩
    · obtain ⟨r, b, hb⟩ := ht a s
      exact absurd hb (e r b)

theorem opt_total {p : CP α} (h : ∀ i, (p i).2 ≠ .incomplete) (i : Bytes) : ∃ r b, (opt p i).2 = .done r b := by
  rcases opt_cases p i with ⟨r, a, h1, h2⟩ | ⟨h1, h2⟩ | ⟨h1, h2⟩
  · exact ⟨r, some a, by rw [h2]⟩
  · exact ⟨i, none, by rw [h2]⟩
  · exact absurd h1 (h i)

theorem isA_ne (s i : Bytes) : (isA s i).2 ≠ .incomplete := by
  show Nom.isA s i ≠ _
  unfold Nom.isA
  split
  · nofun
  · split <;> nofun

theorem lin_labelP : Lin labelP 1 3 0 1 :=
  Lin.bind_total ((lin_oneOf alnumC).scale (Nat.zero_le 1)) (fun _ => (lin_isA alnumdashC).opt)
    fun _ => opt_total (isA_ne _)

/-- A list of parts that never wait, whose failures cost a constant. -/
theorem lin_sepLoop {sep : CP β} {p : CP α} {K A B G : Nat} (hs : Lin sep 0 K 0 K) (h : Lin p A B 0 G)
    (ns : ∀ i, (sep i).2 ≠ .incomplete) (np : ∀ i, (p i).2 ≠ .incomplete) (i : Bytes) :
    ∃ r as, (sepLoop sep p i).2 = .done r as ∧ r.length ≤ i.length ∧
      (sepLoop sep p i).1 + (A + B + K + 1) * r.length ≤ (A + B + K + 1) * i.length + (K + B + G + 1) := by
  have hk : ∀ i, (sep i).1 ≤ K := by
    intro i
    cases hx : (sep i).2 with
    | done r a => have := (hs i).1 r a hx; omega
    | error => have := (hs i).2 (by simp [hx]); omega
    | incomplete => have := (hs i).2 (by simp [hx]); omega
  fun_induction sepLoop sep p i with
  | case1 i n h1 =>
    have := hk i
    rw [h1] at this
    exact ⟨_, _, rfl, Nat.le_refl _, by dsimp only at this ⊢; omega⟩
  | case2 i n h1 => exact absurd (by rw [h1]) (ns i)
  | case3 i n i2 b h1 hlt m h2 =>
    have h3 := hk i
    rw [h1] at h3
    have h4 := (h i2).2 (by simp [h2])
    rw [h2] at h4
    exact ⟨_, _, rfl, Nat.le_refl _, by dsimp only at h3 h4 ⊢; omega⟩
  | case4 i n i2 b h1 hlt m h2 => exact absurd (by rw [h2]) (np i2)
  | case5 i n i2 b h1 hlt m i3 a h2 hlt3 k r as hr ih =>
    have h3 := hk i
    rw [h1] at h3
    obtain ⟨h4, h5⟩ := (h i2).1 i3 a (by rw [h2])
    rw [h2] at h5
    rw [hr] at ih
    obtain ⟨r', as', e, ih1, ih2⟩ := ih
    cases e
    have g0 : i3.length < i.length := Nat.lt_trans hlt3 hlt
    have g2 := Nat.mul_le_mul_left A (Nat.le_of_lt hlt)
    have g3 := Nat.mul_le_mul_left (B + K + 1) g0
    rw [Nat.mul_succ] at g3
    refine ⟨_, _, rfl, by omega, ?_⟩
    have e1 : ∀ n, (A + B + K + 1) * n = A * n + (B + K + 1) * n := fun n => by
      rw [← Nat.add_mul]; congr 1; omega
    rw [e1, e1] at ih2 ⊢
    dsimp only at ih2 h3 h5 ⊢
    omega
  | case6 i n i2 b h1 hlt m i3 a h2 hlt3 k hr ih =>
    rw [hr] at ih
    obtain ⟨r', as', e, _⟩ := ih
    cases e
  | case7 i n i2 b h1 hlt m i3 a h2 hlt3 k hr ih =>
    rw [hr] at ih
    obtain ⟨r', as', e, _⟩ := ih
    cases e
  | case8 i n i2 b h1 hlt m i3 a h2 hlt3 =>
    have h3 := hk i
    rw [h1] at h3
    obtain ⟨h4, h5⟩ := (h i2).1 i3 a (by rw [h2])
    rw [h2] at h5
    have h6 : i3.length = i2.length := by omega
    rw [h6] at h5
    exact ⟨_, _, rfl, Nat.le_refl _, by dsimp only at h3 h5 ⊢; omega⟩
  | case9 i n i2 b h1 hlt =>
    have := hk i
    rw [h1] at this
    exact ⟨_, _, rfl, Nat.le_refl _, by dsimp only at this ⊢; omega⟩

theorem lin_listComplete {sep : CP β} {p : CP α} {K A B G : Nat} (hs : Lin sep 0 K 0 K) (h : Lin p A B 0 G) :
    Lin (separatedNonemptyListComplete sep p) (A + B + K + 1) (B + (K + B + G + 1)) 0 (B + G) := by
  intro i
  have hp := h.complete i
  have hl := lin_sepLoop hs.complete h.complete (complete_ne sep) (complete_ne p)
  unfold separatedNonemptyListComplete separatedNonemptyList
  rcases hx : complete p i with ⟨n, x⟩
  rw [hx] at hp
  cases x with
  | error => have := hp.2 nofun; exact ⟨nofun, fun _ => by dsimp only at this ⊢; omega⟩
  | incomplete => have := hp.2 nofun; exact ⟨nofun, fun _ => by dsimp only at this ⊢; omega⟩
  | done r a =>
    obtain ⟨h1, h2⟩ := hp.1 r a rfl
    dsimp only
    unfold sepRest
    split
    · rename_i hlt
      obtain ⟨r', as, e1, e2, e3⟩ := hl r
      rcases hy : sepLoop (complete sep) (complete p) r with ⟨m, y⟩
      rw [hy] at e1 e3
      dsimp only at e1
      subst e1
      refine ⟨fun r2 a2 e => ?_, fun e => absurd rfl (e _ _)⟩
      cases e
      refine ⟨by omega, ?_⟩
      have g3 := Nat.mul_le_mul_left (B + K + 1) h1
      have e1 : ∀ n, (A + B + K + 1) * n = A * n + (B + K + 1) * n := fun n => by
        rw [← Nat.add_mul]; congr 1; omega
      rw [e1, e1] at e3 ⊢
      dsimp only at e3 h2 ⊢
      omega
    · have h6 : r.length = i.length := by omega
      rw [h6] at h2
      exact ⟨nofun, fun _ => by dsimp only at h2 ⊢; omega⟩

/-! ### Hosts -/

/-- The bytes up to and with the first `]`, or all. -/
def bracketDist (i : Bytes) : Nat :=
  match Nom.findSubstring b!"]" i with
  | some n => n + 1
  | none => i.length

theorem bracketDist_le (i : Bytes) : bracketDist i ≤ i.length := by
  unfold bracketDist
  split
  · rename_i n h
    exact findSubstring_lt (by decide) h
  · exact Nat.le_refl _

theorem bracketDist_cons {c : UInt8} (r : Bytes) (h : c ≠ 93) : bracketDist (c :: r) = bracketDist r + 1 := by
  unfold bracketDist
  rw [Nom.findSubstring, if_neg (by simp; exact fun e => h e.symm)]
  cases Nom.findSubstring b!"]" r <;> simp

theorem bracketDist_append {t : Bytes} (r : Bytes) (h : ∀ c ∈ t, c ≠ 93) : bracketDist (t ++ r) = bracketDist r + t.length := by
  induction t with
  | nil => rfl
  | cons c t ih =>
    rw [List.cons_append, bracketDist_cons _ (h c (by simp)), ih fun d hd => h d (by simp [hd])]
    simp; omega

/-- A literal costs at most three units per byte up to the first `]`, and it ends there. -/
theorem literal_work (t : Bytes) (f : Bytes → Option β) (ht : ∀ c ∈ t, c ≠ 93) (i : Bytes) :
    (mapRes (preceded (tag t) (takeUntilAndConsume b!"]")) literalWork f i).1 ≤ 3 * bracketDist i + (t.length + 3) ∧
    ∀ r a, (mapRes (preceded (tag t) (takeUntilAndConsume b!"]")) literalWork f i).2 = .done r a →
      r.length + bracketDist i = i.length := by
  let g : Bytes → CP β := fun a i => (literalWork a, match f a with | some b => .done i b | none => .error)
  have hw : ∀ i, (tag t i).1 ≤ t.length + 1 := fun i => by show 1 + min _ _ ≤ _; omega
  have hs : ∀ s, (takeUntilAndConsume b!"]" s).1 ≤ 1 + bracketDist s := fun s => by
    show 1 + findWork _ s ≤ _
    unfold findWork bracketDist
    cases Nom.findSubstring b!"]" s <;> simp
  rcases bind_work (preceded (tag t) (takeUntilAndConsume b!"]")) g i with ⟨h0, h2, h3⟩ | ⟨s, a, h2, h3⟩
  · change (mapRes (preceded (tag t) (takeUntilAndConsume b!"]")) literalWork f i).1 = _ at h2
    refine ⟨?_, fun r b e => absurd e (h3 r b)⟩
    rw [h2]
    rcases bind_work (tag t) (fun _ => takeUntilAndConsume b!"]") i with ⟨_, k2, _⟩ | ⟨s, a, k2, k3⟩
    · change (preceded (tag t) (takeUntilAndConsume b!"]") i).1 = _ at k2
      have := hw i
      omega
    · change preceded (tag t) (takeUntilAndConsume b!"]") i = _ at k3
      rw [k3]
      have h4 := (Nom.tag_done.1 k2).1
      have h5 := hw i
      have h6 := hs s
      have h7 := bracketDist_append s ht
      rw [← h4] at h7
      dsimp only
      omega
  · change mapRes (preceded (tag t) (takeUntilAndConsume b!"]")) literalWork f i = _ at h3
    rcases bind_work (tag t) (fun _ => takeUntilAndConsume b!"]") i with ⟨_, _, k3⟩ | ⟨s', a', k2, k3⟩
    · exact absurd h2 (k3 _ _)
    · change preceded (tag t) (takeUntilAndConsume b!"]") i = _ at k3
      have h4 := (Nom.tag_done.1 k2).1
      have h5 := hw i
      have h6 := hs s'
      have h7 := bracketDist_append s' ht
      rw [← h4] at h7
      rw [k3] at h2
      change Nom.takeUntilAndConsume b!"]" s' = _ at h2
      unfold Nom.takeUntilAndConsume at h2
      split at h2
      · cases h2
      · split at h2
        · cases h2
        · rename_i n hn
          cases h2
          have h8 : bracketDist s' = n + 1 := by unfold bracketDist; rw [hn]
          have h9 := bracketDist_le s'
          have hl : i.length = t.length + s'.length := by rw [h4]; simp
          rw [h3, k3]
          refine ⟨?_, fun r b e => ?_⟩
          · show _ + (2 * (s'.take n).length + 1) ≤ _
            rw [List.length_take]
            dsimp only
            omega
          · change (match f (s'.take n) with | some b => IRes.done (s'.drop (n + 1)) b | none => .error) = .done r b at e
            cases hf : f (s'.take n) <;> rw [hf] at e <;> cases e
            rw [List.length_drop]
            omega

theorem lin_hostnameP : Lin (hostnameP : CP (Domain L)) 7 27 6 19 := by
  have h1 : Lin (mapP (recognize (separatedNonemptyListComplete (tag b!".") labelP)) Domain.host : CP (Domain L)) 7 10 0 4 :=
    Lin.mapP (Lin.recognize (lin_listComplete (lin_tag b!".") lin_labelP))
  have h2 : Lin (alt (mapP (mapRes (preceded (tag b!"[IPv6:") (takeUntilAndConsume b!"]")) literalWork L.parse6) .v6)
      (mapP (mapRes (preceded (tag b!"[") (takeUntilAndConsume b!"]")) literalWork L.parse4) .v4) : CP (Domain L)) 6 13 6 13 := by
    intro i
    have map_work : ∀ {γ : Type} (p : CP γ) (f : γ → Domain L) i, (mapP p f i).1 = (p i).1 ∧
        ∀ r a, (mapP p f i).2 = .done r a → ∃ b, (p i).2 = .done r b := by
      intro γ p f i
      rcases bind_work p (fun a => pure (f a)) i with ⟨h0, h2, h3⟩ | ⟨s, a, h2, h3⟩
      · exact ⟨h2, fun r b e => absurd e (h3 r b)⟩
      · change mapP p f i = _ at h3
        rw [h3]
        exact ⟨rfl, fun r b e => by cases e; exact ⟨a, h2⟩⟩
    obtain ⟨a1, a2⟩ := literal_work b!"[IPv6:" L.parse6 (by simp) i
    obtain ⟨b1, b2⟩ := literal_work b!"[" L.parse4 (by simp) i
    obtain ⟨c1, c2⟩ := map_work (mapRes (preceded (tag b!"[IPv6:") (takeUntilAndConsume b!"]")) literalWork L.parse6) .v6 i
    obtain ⟨d1, d2⟩ := map_work (mapRes (preceded (tag b!"[") (takeUntilAndConsume b!"]")) literalWork L.parse4) .v4 i
    have l1 : (b!"[IPv6:").length = 6 := rfl
    have l2 : (b!"[").length = 1 := rfl
    have l3 := bracketDist_le i
    rw [l1, ← c1] at a1
    rw [l2, ← d1] at b1
    rcases alt_cases (mapP (mapRes (preceded (tag b!"[IPv6:") (takeUntilAndConsume b!"]")) literalWork L.parse6) Domain.v6)
      (mapP (mapRes (preceded (tag b!"[") (takeUntilAndConsume b!"]")) literalWork L.parse4) Domain.v4) i with ⟨hn, h3⟩ | ⟨he, h3⟩
      <;> rw [h3]
    · refine ⟨fun r a e => ?_, fun e => by omega⟩
      obtain ⟨b, hb⟩ := c2 r a e
      have := a2 r b hb
      exact ⟨by omega, by omega⟩
    · refine ⟨fun r a e => ?_, fun e => by dsimp only; omega⟩
      obtain ⟨b, hb⟩ := d2 r a e
      have := b2 r b hb
      exact ⟨by omega, by dsimp only; omega⟩
  exact (Lin.alt h1 (h2.scale (by decide))).mono (by decide) (by decide) (by decide)

theorem bd_hostnameP : Bd (hostnameP : CP (Domain L)) 7 27 := fun i => by
  have h := lin_hostnameP (L := L) i
  refine ⟨?_, fun r a e => (h.1 r a e).1⟩
  cases hx : (hostnameP i : Nat × IRes (Domain L)).2 with
  | done r a => have := h.1 r a hx; omega
  | error => have := h.2 (by simp [hx]); omega
  | incomplete => have := h.2 (by simp [hx]); omega

/-! ### Addresses -/

theorem bind_fail {p : CP α} {f : α → CP β} {i : Bytes} {n : Nat} (h : p i = (n, .error)) : (p >>= f) i = (n, .error) := by
  show CP.bind p f i = _
  unfold CP.bind
  rw [h]

theorem bind_then {p : CP α} {f : α → CP β} {i r : Bytes} {n : Nat} {a : α} (h : p i = (n, .done r a)) :
    (p >>= f) i = (n + (f a r).1, (f a r).2) := by
  show CP.bind p f i = _
  unfold CP.bind
  rw [h]

theorem tag1_fail {c d : UInt8} (r : Bytes) (h : c ≠ d) : tag [d] (c :: r) = (2, .error) := by
  unfold tag
  rw [Nom.tag_head_ne h]
  simp

theorem lin_hopP : Lin (hopP L) 7 29 6 23 :=
  Lin.bind0 (lin_tag b!"@") fun _ => Lin.bind_total lin_hostnameP (fun _ => lin_pure () 7) fun _ i => ⟨i, (), rfl⟩

theorem bd_separatedList {sep : CP β} {p : CP α} {K A B F G : Nat} (hs : Lin sep 0 K 0 K) (h : Lin p A B F G) :
    Bd (separatedList sep p) (A + F + B + K + 1) (B + (K + B + G + 1)) := by
  intro i
  have hl := bd_sepLoop hs h
  have hp := h i
  have e1 : ∀ n, (A + F + B + K + 1) * n = A * n + F * n + (B + K + 1) * n := fun n => by
    rw [← Nat.add_mul, ← Nat.add_mul]; congr 1; omega
  rw [e1]
  unfold separatedList
  rcases hx : p i with ⟨n, x⟩
  rw [hx] at hp
  cases x with
  | error =>
    have := hp.2 nofun
    exact ⟨by dsimp only at this ⊢; omega, fun r a e => by cases e; exact Nat.le_refl _⟩
  | incomplete =>
    have := hp.2 nofun
    exact ⟨by dsimp only at this ⊢; omega, nofun⟩
  | done r a =>
    obtain ⟨h1, h2⟩ := hp.1 r a rfl
    dsimp only at h2 ⊢
    unfold sepRest
    split
    · have h3 := hl r
      rw [e1] at h3
      have g1 := Nat.mul_le_mul_left F h1
      have g2 := Nat.mul_le_mul_left (B + K + 1) h1
      rcases hy : sepLoop sep p r with ⟨m, y⟩
      rw [hy] at h3
      obtain ⟨h3, h4⟩ := h3
      dsimp only at h3
      cases y with
      | done r' as => exact ⟨by dsimp only; omega, fun r2 a2 e => by cases e; exact Nat.le_trans (h4 _ _ rfl) h1⟩
      | error => exact ⟨by dsimp only; omega, nofun⟩
      | incomplete => exact ⟨by dsimp only; omega, nofun⟩
    · exact ⟨by dsimp only; omega, nofun⟩

theorem bd_tag (t : Bytes) : Bd (tag t) 0 (1 + t.length) := fun i =>
  ⟨by show 1 + min _ _ ≤ _; omega, fun r a e => ((lin_tag t i).1 r a e).1⟩

theorem bd_oneOf (s : Bytes) : Bd (oneOf s) 0 1 := fun i =>
  ⟨by show 1 ≤ _; omega, fun r a e => ((lin_oneOf s i).1 r a e).1⟩

theorem bd_routeP : Bd (routeP L) 45 86 :=
  (Bd.bind (bd_separatedList (lin_tag b!",") lin_hopP) fun _ => Bd.bind (bd_tag b!":") fun _ => bd_pure ()).mono
    (by decide) (by decide)

theorem lin_quotedItemP : Lin quotedItemP 0 13 0 10 := by
  have h1 : ∀ f, Lin (verify (take 1) f) 0 2 0 3 := fun f => (lin_take 1).verify
  exact Lin.alt (Lin.bind0 (lin_tag b!"\\") fun _ => h1 _) (h1 _)

theorem bd_quotedStringP : Bd quotedStringP 14 32 :=
  (Bd.recognize (Bd.bind (bd_tag b!"\"") fun _ => Bd.bind (bd_many0 lin_quotedItemP) fun _ =>
    Bd.bind (bd_tag b!"\"") fun _ => bd_pure ())).mono (by decide) (by decide)

theorem lin_dotStringP : Lin dotStringP 5 6 0 2 :=
  Lin.recognize (lin_listComplete (lin_tag b!".") (lin_isA atextC))

theorem bd_dotStringP : Bd dotStringP 5 6 := fun i => by
  have h := lin_dotStringP i
  refine ⟨?_, fun r a e => (h.1 r a e).1⟩
  cases hx : (dotStringP i).2 with
  | done r a => have := h.1 r a hx; omega
  | error => have := h.2 (by simp [hx]); omega
  | incomplete => have := h.2 (by simp [hx]); omega

theorem bd_emailP : Bd (emailP : CP (Email L)) 26 67 :=
  (Bd.bind (bd_quotedStringP.alt bd_dotStringP) fun _ =>
    Bd.bind ((bd_tag b!"@").preceded bd_hostnameP).complete.opt fun _ => bd_pure _).mono (by decide) (by decide)

theorem bd_addressInPathP : Bd (addressInPathP : CP (Email L)) 71 153 :=
  (bd_routeP.opt.preceded bd_emailP).mono (by decide) (by decide)

/-- An address cannot start with `<`, and this is seen at once. -/
theorem addressInPathP_lt (r : Bytes) : (addressInPathP (60 :: r) : Nat × IRes (Email L)) = (7, .error) := by
  have h1 : hopP L (60 :: r) = (2, .error) := bind_fail (tag1_fail r (by decide))
  have h2 : separatedList (tag b!",") (hopP L) (60 :: r) = (2, .done (60 :: r) []) := by
    unfold separatedList
    rw [h1]
  have h3 : routeP L (60 :: r) = (4, .error) := by
    unfold routeP
    rw [bind_then h2, bind_fail (tag1_fail r (by decide))]
    rfl
  have h4 : opt (routeP L) (60 :: r) = (4, .done (60 :: r) none) := by
    unfold opt
    rw [h3]
  have h5 : quotedStringP (60 :: r) = (2, .error) := by
    unfold quotedStringP recognize
    rw [bind_fail (tag1_fail r (by decide))]
  have h6 : isA atextC (60 :: r) = (1, .error) := by
    have hc : ¬ atextC.contains 60 := by decide
    unfold isA Nom.isA
    rw [List.takeWhile_cons_of_neg hc]
    simp only [hc]
    rfl
  have h7 : dotStringP (60 :: r) = (1, .error) := by
    unfold dotStringP recognize separatedNonemptyListComplete separatedNonemptyList complete
    rw [h6]
  have h8 : (emailP (60 :: r) : Nat × IRes (Email L)) = (3, .error) := by
    unfold emailP
    refine bind_fail ?_
    unfold localpartP alt
    rw [h5, h7]
    rfl
  unfold addressInPathP
  show CP.bind _ _ _ = _
  unfold CP.bind
  rw [h4]
  dsimp only
  rw [h8]
  rfl

theorem bd_maybeBracketedP : Bd (maybeBracketedP : CP (Email L)) 71 164 := by
  intro i
  let p : CP (Email L) := do
      let _ ← tag b!"<"
      let addr ← addressInPathP
      let _ ← tag b!">"
      return addr
  have hp : Bd p 71 157 := (Bd.bind (bd_tag b!"<") fun _ => Bd.bind bd_addressInPathP fun _ =>
    Bd.bind (bd_tag b!">") fun _ => bd_pure _).mono (by decide) (by decide)
  have hq := bd_addressInPathP (L := L) i
  obtain ⟨hp1, hp2⟩ := hp i
  have e : maybeBracketedP i = alt p addressInPathP i := rfl
  rw [e]
  rcases alt_cases p addressInPathP i with ⟨hn, h3⟩ | ⟨he, h3⟩ <;> rw [h3]
  · exact ⟨by omega, hp2⟩
  · refine ⟨?_, hq.2⟩
    dsimp only
    match i with
    | [] =>
      have h1 := hq.1
      have h2 : (p []).1 = 1 := rfl
      rw [h2]
      omega
    | c :: r =>
      by_cases hc : c = 60
      · subst hc
        rw [addressInPathP_lt]
        dsimp only
        omega
      · have h1 : p (c :: r) = (2, .error) := bind_fail (tag1_fail r hc)
        have h2 := hq.1
        rw [h1]
        dsimp only
        omega

/-! ### Parameters -/

theorem lin_valueP : Lin (opt (complete (preceded (tag b!"=") (isA graphExceptEquC)))) 1 8 0 5 :=
  Lin.opt (Lin.complete (Lin.bind0 (lin_tag b!"=") fun _ => lin_isA graphExceptEquC))

theorem lin_keyP : Lin (recognize (preceded (oneOf alnumC) (opt (isA alnumdashC)))) 1 3 0 1 := Lin.recognize lin_labelP

theorem lin_paramP : Lin paramP 1 13 1 5 := by
  have h1 : ∀ key, Lin (opt (complete (preceded (tag b!"=") (isA graphExceptEquC))) >>= fun value => (pure (key, value) :
      CP (Bytes × Option Bytes))) 1 8 0 5 := fun key =>
    Lin.bind_total lin_valueP (fun _ => lin_pure _ 1) fun _ i => ⟨i, _, rfl⟩
  refine (Lin.bind0 (lin_oneOf spacesC) fun _ => Lin.bind lin_eatSpaces fun _ => Lin.bind_total lin_keyP h1 ?_).mono
    (by decide) (by decide) (by decide)
  intro key i
  obtain ⟨r, b, h⟩ := opt_total (complete_ne (preceded (tag b!"=") (isA graphExceptEquC))) i
  rcases bind_work (opt (complete (preceded (tag b!"=") (isA graphExceptEquC)))) (fun value => (pure (key, value) :
      CP (Bytes × Option Bytes))) i with ⟨h0, _⟩ | ⟨s, a, _, h3⟩
  · exact absurd h (h0 _ _)
  · exact ⟨s, (key, a), by rw [h3]; rfl⟩

theorem paramP_size {i r : Bytes} {a : Bytes × Option Bytes} (h : (paramP i).2 = .done r a) :
    a.1.length + 1 + r.length ≤ i.length := by
  unfold paramP at h
  rcases bind_work (oneOf spacesC) (fun _ => eatSpaces >>= fun _ =>
    recognize (preceded (oneOf alnumC) (opt (isA alnumdashC))) >>= fun key =>
    opt (complete (preceded (tag b!"=") (isA graphExceptEquC))) >>= fun value => (pure (key, value) :
      CP (Bytes × Option Bytes))) i with ⟨_, _, h3⟩ | ⟨s1, a1, h2, h3⟩
  · exact absurd h (h3 _ _)
  rw [h3] at h
  have g1 := congrArg List.length (Nom.oneOf_done.1 h2).1
  rcases bind_work eatSpaces (fun _ =>
    recognize (preceded (oneOf alnumC) (opt (isA alnumdashC))) >>= fun key =>
    opt (complete (preceded (tag b!"=") (isA graphExceptEquC))) >>= fun value => (pure (key, value) :
      CP (Bytes × Option Bytes))) s1 with ⟨_, _, k3⟩ | ⟨s2, a2, k2, k3⟩
  · exact absurd h (k3 _ _)
  rw [k3] at h
  have g2 := ((lin_eatSpaces s1).1 _ _ k2).1
  rcases bind_work (recognize (preceded (oneOf alnumC) (opt (isA alnumdashC)))) (fun key =>
    opt (complete (preceded (tag b!"=") (isA graphExceptEquC))) >>= fun value => (pure (key, value) :
      CP (Bytes × Option Bytes))) s2 with ⟨_, _, l3⟩ | ⟨s3, a3, l2, l3⟩
  · exact absurd h (l3 _ _)
  rw [l3] at h
  have g3 := ((lin_keyP s2).1 _ _ l2).1
  have g4 : a3.length ≤ s2.length - s3.length := by
    unfold recognize at l2
    rcases hx : preceded (oneOf alnumC) (opt (isA alnumdashC)) s2 with ⟨n, x⟩
    rw [hx] at l2
    cases x with
    | done r' a' => cases l2; rw [List.length_take]; exact Nat.min_le_left _ _
    | error => cases l2
    | incomplete => cases l2
  rcases bind_work (opt (complete (preceded (tag b!"=") (isA graphExceptEquC)))) (fun value => (pure (a3, value) :
      CP (Bytes × Option Bytes))) s3 with ⟨_, _, m3⟩ | ⟨s4, a4, m2, m3⟩
  · exact absurd h (m3 _ _)
  rw [m3] at h
  have g5 := ((lin_valueP s3).1 _ _ m2).1
  cases h
  rw [List.length_cons] at g1
  dsimp only
  omega

theorem many0_size {p : CP α} {w : α → Nat} (hp : ∀ i r a, (p i).2 = .done r a → w a + r.length ≤ i.length)
    {i r : Bytes} {as : List α} (h : (many0 p i).2 = .done r as) : (as.map w).sum + r.length ≤ i.length := by
  fun_induction many0 p i generalizing as with
  | case1 => cases h; simp
  | case2 i hi n h1 => cases h; simp
  | case3 => cases h
  | case4 i hi n r1 a h1 hlt m r' as' h2 ih =>
    cases h
    have h3 := hp i r1 a (by rw [h1])
    have h4 := ih (by rw [h2])
    rw [List.map_cons, List.sum_cons]
    omega
  | case5 => cases h
  | case6 => cases h
  | case7 => cases h

theorem bd_parametersP : Bd parametersP 17 19 := by
  intro i
  have hb := bd_many0 lin_paramP i
  rcases bind_work (many0 paramP) (fun ps => tick (collectWork ps) >>= fun _ => (pure (Params.collect ps) : CP Params)) i with
    ⟨h0, h2, h3⟩ | ⟨s, a, h2, h3⟩
  · change (parametersP i).1 = _ at h2
    exact ⟨by rw [h2]; omega, fun r b e => absurd e (h3 r b)⟩
  · change parametersP i = _ at h3
    have h4 := many0_size (w := fun p => p.1.length + 1) (fun i r a h => paramP_size h) h2
    have h5 : (collectWork a) + s.length ≤ i.length := h4
    rw [h3]
    refine ⟨?_, fun r b e => ?_⟩
    · show _ + (collectWork a + 0) ≤ _
      omega
    · cases e
      exact hb.2 _ _ h2

/-! ### Commands -/

/-- The first four bytes, in small letters. -/
def word (i : Bytes) : Bytes := (i.take 4).map Nom.lower

/-- After the verb: only an input that starts with it costs more than a constant. -/
theorem verb_work {t : Bytes} {f : Bytes → CP β} {A B : Nat} (ht : 4 ≤ t.length) (hf : ∀ a, Bd (f a) A B) (i : Bytes) :
    ((tagNoCase t >>= f) i).1 ≤ (if word i = word t then A * i.length + B else 0) + (1 + t.length) := by
  have hw : (tagNoCase t i).1 ≤ 1 + t.length := by show 1 + min _ _ ≤ _; omega
  rcases bind_work (tagNoCase t) f i with ⟨_, h2, _⟩ | ⟨s, a, h2, h3⟩
  · rw [h2]; omega
  · have h4 := Nom.tagNoCase_done.1 h2
    have hl : a.length = t.length := by simpa using congrArg List.length h4.2
    have h5 : word i = word t := by
      unfold word
      rw [h4.1, List.take_append_of_le_length (by omega), List.map_take, List.map_take, h4.2]
    rw [if_pos h5, h3]
    have h6 := (hf a s).1
    have h7 : s.length ≤ i.length := by rw [h4.1]; simp
    have h8 := Nat.mul_le_mul_left A h7
    dsimp only
    omega

theorem alt_work (p q : CP α) (i : Bytes) : (alt p q i).1 ≤ (p i).1 + (q i).1 := by
  rcases alt_cases p q i with ⟨_, h⟩ | ⟨_, h⟩ <;> rw [h]
  · omega
  · exact Nat.le_refl _

theorem bd_eatSpaces : Bd eatSpaces 1 1 := lin_eatSpaces.bd
/-- EHLO and HELO skip blanks before the verb. -/
theorem bd_hello (t : Bytes) (k : Domain L → Command L) : Bd (do
    let _ ← eatSpaces
    let _ ← tagNoCase t
    let _ ← eatSpaces
    let domain ← hostnameP
    let _ ← eatSpaces
    let _ ← tag b!"\r\n"
    return k domain) 10 (34 + t.length) :=
  (Bd.bind bd_eatSpaces fun _ => Bd.bind (show Bd (tagNoCase t) 0 (1 + t.length) from fun i =>
      ⟨by show 1 + min _ _ ≤ _; omega, fun r a e => ((lin_tagNoCase t i).1 r a e).1⟩) fun _ =>
    Bd.bind bd_eatSpaces fun _ => Bd.bind bd_hostnameP fun _ => Bd.bind bd_eatSpaces fun _ =>
      Bd.bind (bd_tag b!"\r\n") fun _ => bd_pure _).mono (by omega) (by simp; omega)

theorem bd_blankEnd (c : Command L) : Bd (eatSpaces >>= fun _ => crlfP >>= fun _ => (pure c : CP (Command L))) 90 191 :=
  (Bd.bind bd_eatSpaces fun _ => Bd.bind (bd_tag b!"\r\n") fun _ => bd_pure _).mono (by decide) (by decide)

theorem bd_text {p : CP α} (hp : Bd p 0 1) (k : Bytes → Command L) : Bd (p >>= fun _ => takeUntil b!"\r\n" >>= fun res =>
    tag b!"\r\n" >>= fun _ => (pure (k res) : CP (Command L))) 90 191 :=
  (Bd.bind hp fun _ => Bd.bind (bd_takeUntil (by decide)) fun _ => Bd.bind (bd_tag b!"\r\n") fun _ => bd_pure _).mono
    (by decide) (by decide)

theorem bd_path {p : CP α} (hp : Bd p 71 167) (k : α → Params → Command L) : Bd (eatSpaces >>= fun _ => p >>= fun a =>
    parametersP >>= fun ps => eatSpaces >>= fun _ => crlfP >>= fun _ => (pure (k a ps) : CP (Command L))) 90 191 :=
  (Bd.bind bd_eatSpaces fun _ => Bd.bind hp fun _ => Bd.bind bd_parametersP fun _ => Bd.bind bd_eatSpaces fun _ =>
    Bd.bind (bd_tag b!"\r\n") fun _ => bd_pure _).mono (by decide) (by decide)

/-- Of different verbs, the input has at most one. -/
theorem sum_gated (w : Bytes) (M : Nat) (vs : List Bytes) (h : vs.Nodup) : (vs.map fun v => if w = v then M else 0).sum ≤ M := by
  induction vs with
  | nil => simp
  | cons v vs ih =>
    have ⟨h1, h2⟩ := List.nodup_cons.1 h
    rw [List.map_cons, List.sum_cons]
    by_cases hv : w = v
    · have : (vs.map fun v => if w = v then M else 0).sum = 0 := by
        clear ih h2 h
        induction vs with
        | nil => rfl
        | cons u us ih =>
          rw [List.mem_cons, not_or] at h1
          rw [List.map_cons, List.sum_cons, if_neg (by rw [hv]; exact h1.1), ih h1.2]
      rw [if_pos hv, this]
      exact Nat.le_refl _
    · rw [if_neg hv]
      have := ih h2
      omega

theorem commandP_work (i : Bytes) : (commandP i : Nat × IRes (Command L)).1 ≤ 110 * i.length + 322 := by
  have e1 := alt_work (dataArgs : CP (Command L)) (alt ehloArgs <| alt expnArgs <| alt heloArgs <| alt helpArgs <| alt mailArgs <|
    alt noopArgs <| alt quitArgs <| alt rcptArgs <| alt rsetArgs vrfyArgs) i
  have e2 := alt_work (ehloArgs : CP (Command L)) (alt expnArgs <| alt heloArgs <| alt helpArgs <| alt mailArgs <|
    alt noopArgs <| alt quitArgs <| alt rcptArgs <| alt rsetArgs vrfyArgs) i
  have e3 := alt_work (expnArgs : CP (Command L)) (alt heloArgs <| alt helpArgs <| alt mailArgs <|
    alt noopArgs <| alt quitArgs <| alt rcptArgs <| alt rsetArgs vrfyArgs) i
  have e4 := alt_work (heloArgs : CP (Command L)) (alt helpArgs <| alt mailArgs <|
    alt noopArgs <| alt quitArgs <| alt rcptArgs <| alt rsetArgs vrfyArgs) i
  have e5 := alt_work (helpArgs : CP (Command L)) (alt mailArgs <|
    alt noopArgs <| alt quitArgs <| alt rcptArgs <| alt rsetArgs vrfyArgs) i
  have e6 := alt_work (mailArgs : CP (Command L)) (alt noopArgs <| alt quitArgs <| alt rcptArgs <| alt rsetArgs vrfyArgs) i
  have e7 := alt_work (noopArgs : CP (Command L)) (alt quitArgs <| alt rcptArgs <| alt rsetArgs vrfyArgs) i
  have e8 := alt_work (quitArgs : CP (Command L)) (alt rcptArgs <| alt rsetArgs vrfyArgs) i
  have e9 := alt_work (rcptArgs : CP (Command L)) (alt rsetArgs vrfyArgs) i
  have e10 := alt_work (rsetArgs : CP (Command L)) vrfyArgs i
  have h1 : (dataArgs i : Nat × IRes (Command L)).1 ≤ _ := verb_work (t := b!"DATA") (by decide) (fun _ => bd_blankEnd .data) i
  have h2 : (ehloArgs i : Nat × IRes (Command L)).1 ≤ _ := (bd_hello b!"EHLO" .ehlo i).1
  have h3 : (expnArgs i : Nat × IRes (Command L)).1 ≤ _ :=
    verb_work (t := b!"EXPN") (by decide) (fun _ => bd_text (bd_oneOf spacesC) .expn) i
  have h4 : (heloArgs i : Nat × IRes (Command L)).1 ≤ _ := (bd_hello b!"HELO" .helo i).1
  have h5 : (helpArgs i : Nat × IRes (Command L)).1 ≤ _ :=
    verb_work (t := b!"HELP") (by decide) (fun _ => bd_text (bd_oneOf spacesC).opt .help) i
  have h6 : (mailArgs i : Nat × IRes (Command L)).1 ≤ _ :=
    verb_work (t := b!"MAIL FROM:") (by decide) (fun _ => bd_path (Bd.alt (bd_tag b!"<>").mapP bd_maybeBracketedP.mapP) .mail) i
  have h7 : (noopArgs i : Nat × IRes (Command L)).1 ≤ _ :=
    verb_work (t := b!"NOOP") (by decide) (fun _ => bd_text (bd_oneOf spacesC).opt .noop) i
  have h8 : (quitArgs i : Nat × IRes (Command L)).1 ≤ _ := verb_work (t := b!"QUIT") (by decide) (fun _ => bd_blankEnd .quit) i
  have h9 : (rcptArgs i : Nat × IRes (Command L)).1 ≤ _ :=
    verb_work (t := b!"RCPT TO:") (by decide) (fun _ => bd_path (bd_maybeBracketedP.mono (by decide) (by decide)) .rcpt) i
  have h10 : (rsetArgs i : Nat × IRes (Command L)).1 ≤ _ := verb_work (t := b!"RSET") (by decide) (fun _ => bd_blankEnd .rset) i
  have h11 : (vrfyArgs i : Nat × IRes (Command L)).1 ≤ _ :=
    verb_work (t := b!"VRFY") (by decide) (fun _ => bd_text (bd_oneOf spacesC) .vrfy) i
  have hs := sum_gated (word i) (90 * i.length + 191) [word b!"DATA", word b!"EXPN", word b!"HELP", word b!"MAIL FROM:",
    word b!"NOOP", word b!"QUIT", word b!"RCPT TO:", word b!"RSET", word b!"VRFY"] (by decide)
  simp only [List.map_cons, List.map_nil, List.sum_cons, List.sum_nil] at hs
  simp only [List.length_cons, List.length_nil] at h1 h2 h3 h4 h5 h6 h7 h8 h9 h10 h11
  change (alt _ _ i : Nat × IRes (Command L)).1 ≤ _
  omega

theorem replyP_work (i : Bytes) : (replyP i).1 ≤ 2 * i.length + 20 := by
  have h1 : Bd (mapRes (take 3) literalWork ReplyLine.u16FromStr) 0 9 :=
    (Bd.mapRes (A' := 0) (B' := 7) (show Bd (take 3) 0 1 from fun i =>
      ⟨by show 1 ≤ _; omega, fun r a e => ((lin_take 3 i).1 r a e).1⟩) (fun i r a e => by
        change Nom.take 3 i = _ at e
        unfold Nom.take at e
        split at e
        · cases e
        · cases e; unfold literalWork; rw [List.length_take]; omega)).mono (by decide) (by decide)
  have h2 : ∀ f, Bd (verify (mapRes (take 3) literalWork ReplyLine.u16FromStr) f) 0 10 := fun f =>
    (Bd.bind h1 fun a => show Bd (fun i => (1, if f a then IRes.done i a else .error)) 0 1 from fun i =>
      ⟨by dsimp only; omega, fun r b e => by
        dsimp only at e
        split at e <;> cases e
        exact Nat.le_refl _⟩).mono (by decide) (by decide)
  have h3 : Bd replyP 2 20 := (Bd.bind (h2 _).mapP fun _ => Bd.bind ((bd_tag b!"-").alt (bd_tag b!" ")).mapP fun _ =>
    Bd.bind (bd_takeUntilAndConsume (by decide)) fun _ => bd_pure _).mono (by decide) (by decide)
  exact (h3 i).1

/-! ### Every byte that is accepted was looked at -/

/-- A success costs at least one unit per consumed byte. -/
def Reads (p : CP α) : Prop := ∀ i r a, (p i).2 = .done r a → i.length ≤ (p i).1 + r.length

theorem Reads.bind {p : CP α} {f : α → CP β} (h : Reads p) (h' : ∀ a, Reads (f a)) : Reads (p >>= f) := by
  intro i r b e
  rcases bind_work p f i with ⟨_, _, h3⟩ | ⟨s, a, h2, h3⟩
  · exact absurd e (h3 _ _)
  · rw [h3] at e ⊢
    have h4 := h i s a h2
    have h5 := h' a s r b e
    dsimp only
    omega

theorem reads_pure (a : α) : Reads (pure a : CP α) := fun i r b e => by cases e; exact Nat.le_add_left _ _

theorem reads_tick (n : Nat) : Reads (tick n) := fun i r b e => by cases e; exact Nat.le_add_left _ _

theorem reads_tag (t : Bytes) : Reads (tag t) := fun i r b e => by
  have h := congrArg List.length (Nom.tag_done.1 e).1
  rw [List.length_append] at h
  show _ ≤ 1 + min _ _ + _
  omega

theorem reads_tagNoCase (t : Bytes) : Reads (tagNoCase t) := fun i r b e => by
  have h' := Nom.tagNoCase_done.1 e
  have h := congrArg List.length h'.1
  have hl : b.length = t.length := by simpa using congrArg List.length h'.2
  rw [List.length_append] at h
  show _ ≤ 1 + min _ _ + _
  omega

theorem reads_oneOf (s : Bytes) : Reads (oneOf s) := fun i r b e => by
  have h := congrArg List.length (Nom.oneOf_done.1 e).1
  rw [List.length_cons] at h
  show _ ≤ 1 + _
  omega

theorem reads_eatSpaces : Reads eatSpaces := fun i r b e => by
  have hl := congrArg List.length (List.takeWhile_append_dropWhile (p := spacesC.contains) (l := i))
  rw [List.length_append] at hl
  cases e
  show _ ≤ 1 + _ + _
  omega

theorem reads_isA (s : Bytes) : Reads (isA s) := fun i r b e => by
  have hl := congrArg List.length (List.takeWhile_append_dropWhile (p := s.contains) (l := i))
  rw [List.length_append] at hl
  change Nom.isA s i = _ at e
  show _ ≤ 1 + _ + _
  unfold Nom.isA at e
  split at e
  · exact Nat.zero_le _
  · split at e <;> cases e
    omega

theorem reads_take1 : Reads (take 1) := fun i r b e => by
  change Nom.take 1 i = _ at e
  show _ ≤ 1 + _
  unfold Nom.take at e
  split at e <;> cases e
  rw [List.length_drop]
  omega

theorem reads_takeUntil {t : Bytes} (ht : t ≠ []) : Reads (takeUntil t) := fun i r b e => by
  have hp := List.length_pos_iff.2 ht
  change Nom.takeUntil t i = _ at e
  show _ ≤ 1 + findWork t i + _
  unfold findWork
  unfold Nom.takeUntil at e
  split at e
  · cases e
  · split at e
    · cases e
    · rename_i n hn
      cases e
      rw [hn, List.length_drop]
      have := Nat.le_mul_of_pos_left (n + 1) hp
      dsimp only
      omega

theorem reads_takeUntilAndConsume {t : Bytes} (ht : t ≠ []) : Reads (takeUntilAndConsume t) := fun i r b e => by
  have hp := List.length_pos_iff.2 ht
  change Nom.takeUntilAndConsume t i = _ at e
  show _ ≤ 1 + findWork t i + _
  unfold findWork
  unfold Nom.takeUntilAndConsume at e
  split at e
  · cases e
  · split at e
    · cases e
    · rename_i n hn
      cases e
      rw [hn, List.length_drop]
      have := Nat.le_mul_of_pos_left n hp
      dsimp only
      rw [Nat.mul_succ]
      omega

theorem Reads.mapP {p : CP α} {f : α → β} (h : Reads p) : Reads (mapP p f) := Reads.bind h fun _ => reads_pure _
theorem Reads.preceded {p : CP α} {q : CP β} (h : Reads p) (h' : Reads q) : Reads (preceded p q) := Reads.bind h fun _ => h'

theorem Reads.mapRes {p : CP α} {w : α → Nat} {f : α → Option β} (h : Reads p) : Reads (mapRes p w f) :=
  Reads.bind h fun a i r b e => by
    dsimp only at e ⊢
    split at e <;> cases e
    omega

theorem Reads.verify {p : CP α} {f : α → Bool} (h : Reads p) : Reads (verify p f) :=
  Reads.bind h fun a i r b e => by
    dsimp only at e ⊢
    split at e <;> cases e
    omega

theorem Reads.opt {p : CP α} (h : Reads p) : Reads (opt p) := fun i r b e => by
  rcases opt_cases p i with ⟨r', a, h1, h2⟩ | ⟨h1, h2⟩ | ⟨h1, h2⟩ <;> rw [h2] at e ⊢ <;> cases e
  · exact h i _ _ h1
  · exact Nat.le_add_left _ _

theorem Reads.complete {p : CP α} (h : Reads p) : Reads (complete p) := fun i r b e => by
  rcases complete_cases p i with h1 | ⟨h1, h2⟩
  · rw [h1] at e ⊢; exact h i r b e
  · rw [h2] at e; cases e

theorem Reads.alt {p q : CP α} (h : Reads p) (h' : Reads q) : Reads (alt p q) := fun i r b e => by
  rcases alt_cases p q i with ⟨_, h3⟩ | ⟨_, h3⟩ <;> rw [h3] at e ⊢
  · exact h i r b e
  · have := h' i r b e
    dsimp only
    omega

theorem Reads.recognize {p : CP α} (h : Reads p) : Reads (recognize p) := fun i r b e => by
  rcases recognize_cases p i with ⟨r', a, b', h1, h2⟩ | ⟨h0, h1, h2⟩
  · rw [h2] at e ⊢; cases e; exact h i _ _ h1
  · exact absurd e (h2 _ _)

theorem Reads.many0 {p : CP α} (h : Reads p) : Reads (many0 p) := fun i r b e => by
  fun_induction ParseWork.many0 p i generalizing b with
  | case1 => exact Nat.zero_le _
  | case2 i hi n h1 => cases e; dsimp only; omega
  | case3 => cases e
  | case4 i hi n r1 a h1 hlt m r' as' h2 ih =>
    cases e
    have h3 := h i r1 a (by rw [h1])
    have h4 := ih _ (by rw [h2])
    rw [h1] at h3
    rw [h2] at h4
    dsimp only at h3 h4 ⊢
    omega
  | case5 => cases e
  | case6 => cases e
  | case7 => cases e

theorem Reads.sepLoop {sep : CP β} {p : CP α} (hs : Reads sep) (h : Reads p) : Reads (sepLoop sep p) := fun i r b e => by
  fun_induction ParseWork.sepLoop sep p i generalizing b with
  | case1 => cases e; dsimp only; omega
  | case2 => cases e
  | case3 => cases e; dsimp only; omega
  | case4 => cases e
  | case5 i n i2 b' h1 hlt m i3 a h2 hlt3 k r' as hr ih =>
    cases e
    have h3 := hs i i2 b' (by rw [h1])
    have h4 := h i2 i3 a (by rw [h2])
    have h5 := ih _ (by rw [hr])
    rw [h1] at h3
    rw [h2] at h4
    rw [hr] at h5
    dsimp only at h3 h4 h5 ⊢
    omega
  | case6 => cases e
  | case7 => cases e
  | case8 => cases e; dsimp only; omega
  | case9 => cases e; dsimp only; omega

theorem reads_sepRest {sep : CP β} {p : CP α} (hs : Reads sep) (h : Reads p) {n : Nat} {i s r : Bytes} {a : α} {as : List α}
    (hn : i.length ≤ n + s.length) (e : (sepRest sep p n i s a).2 = .done r as) :
    i.length ≤ (sepRest sep p n i s a).1 + r.length := by
  unfold sepRest at e ⊢
  split at e
  · rename_i hlt
    rw [if_pos hlt]
    have h2 := Reads.sepLoop hs h s
    rcases hy : ParseWork.sepLoop sep p s with ⟨m, y⟩
    rw [hy] at h2 e
    cases y with
    | done r' as' =>
      cases e
      have := h2 _ _ rfl
      dsimp only at this ⊢
      omega
    | error => cases e
    | incomplete => cases e
  · cases e

theorem Reads.separatedNonemptyList {sep : CP β} {p : CP α} (hs : Reads sep) (h : Reads p) :
    Reads (separatedNonemptyList sep p) := fun i r b e => by
  unfold ParseWork.separatedNonemptyList at e ⊢
  have hp := h i
  rcases hx : p i with ⟨n, x⟩
  rw [hx] at hp e
  cases x with
  | done s a => exact reads_sepRest hs h (hp s a rfl) e
  | error => cases e
  | incomplete => cases e

theorem Reads.separatedList {sep : CP β} {p : CP α} (hs : Reads sep) (h : Reads p) :
    Reads (separatedList sep p) := fun i r b e => by
  unfold ParseWork.separatedList at e ⊢
  have hp := h i
  rcases hx : p i with ⟨n, x⟩
  rw [hx] at hp e
  cases x with
  | done s a => exact reads_sepRest hs h (hp s a rfl) e
  | error => cases e; dsimp only; omega
  | incomplete => cases e

theorem reads_labelP : Reads labelP := (reads_oneOf _).preceded (reads_isA _).opt

theorem reads_hostnameP : Reads (hostnameP : CP (Domain L)) :=
  (Reads.separatedNonemptyList (reads_tag _).complete reads_labelP.complete).recognize.mapP.alt
    (((reads_tag _).preceded (reads_takeUntilAndConsume (by decide))).mapRes.mapP.alt
      ((reads_tag _).preceded (reads_takeUntilAndConsume (by decide))).mapRes.mapP)

theorem reads_quotedItemP : Reads quotedItemP := ((reads_tag _).preceded reads_take1.verify).alt reads_take1.verify

theorem reads_emailP : Reads (emailP : CP (Email L)) :=
  Reads.bind ((Reads.recognize (Reads.bind (reads_tag _) fun _ => Reads.bind reads_quotedItemP.many0 fun _ =>
      Reads.bind (reads_tag _) fun _ => reads_pure _)).alt
    (Reads.separatedNonemptyList (reads_tag _).complete (reads_isA _).complete).recognize) fun _ =>
  Reads.bind ((reads_tag _).preceded reads_hostnameP).complete.opt fun _ => reads_pure _

theorem reads_addressInPathP : Reads (addressInPathP : CP (Email L)) :=
  Reads.preceded (Reads.opt (Reads.bind (Reads.separatedList (reads_tag _) (Reads.bind (reads_tag _) fun _ =>
    Reads.bind reads_hostnameP fun _ => reads_pure _)) fun _ => Reads.bind (reads_tag _) fun _ => reads_pure _)) reads_emailP

theorem reads_maybeBracketedP : Reads (maybeBracketedP : CP (Email L)) :=
  Reads.alt (Reads.bind (reads_tag _) fun _ => Reads.bind reads_addressInPathP fun _ => Reads.bind (reads_tag _) fun _ =>
    reads_pure _) reads_addressInPathP

theorem reads_parametersP : Reads parametersP :=
  Reads.bind (Reads.many0 (Reads.bind (reads_oneOf _) fun _ => Reads.bind reads_eatSpaces fun _ =>
    Reads.bind ((reads_oneOf _).preceded (reads_isA _).opt).recognize fun _ =>
    Reads.bind ((reads_tag _).preceded (reads_isA _)).complete.opt fun _ => reads_pure _)) fun _ =>
  Reads.bind (reads_tick _) fun _ => reads_pure _

theorem reads_commandP : Reads (commandP : CP (Command L)) := by
  have he : ∀ c : Command L, Reads (eatSpaces >>= fun _ => crlfP >>= fun _ => (pure c : CP (Command L))) := fun c =>
    Reads.bind reads_eatSpaces fun _ => Reads.bind (reads_tag _) fun _ => reads_pure _
  have hh : ∀ (t : Bytes) (k : Domain L → Command L), Reads (eatSpaces >>= fun _ => tagNoCase t >>= fun _ => eatSpaces >>= fun _ =>
      hostnameP >>= fun d => eatSpaces >>= fun _ => tag b!"\r\n" >>= fun _ => (pure (k d) : CP (Command L))) := fun t k =>
    Reads.bind reads_eatSpaces fun _ => Reads.bind (reads_tagNoCase t) fun _ => Reads.bind reads_eatSpaces fun _ =>
      Reads.bind reads_hostnameP fun _ => Reads.bind reads_eatSpaces fun _ => Reads.bind (reads_tag _) fun _ => reads_pure _
  have ht : ∀ k : Bytes → Command L, Reads (takeUntil b!"\r\n" >>= fun res => tag b!"\r\n" >>= fun _ =>
      (pure (k res) : CP (Command L))) := fun k =>
    Reads.bind (reads_takeUntil (by decide)) fun _ => Reads.bind (reads_tag _) fun _ => reads_pure _
  have hp : ∀ {α : Type} (p : CP α) (k : α → Params → Command L), Reads p → Reads (eatSpaces >>= fun _ => p >>= fun a =>
      parametersP >>= fun ps => eatSpaces >>= fun _ => crlfP >>= fun _ => (pure (k a ps) : CP (Command L))) := fun p k h =>
    Reads.bind reads_eatSpaces fun _ => Reads.bind h fun _ => Reads.bind reads_parametersP fun _ =>
      Reads.bind reads_eatSpaces fun _ => Reads.bind (reads_tag _) fun _ => reads_pure _
  exact Reads.alt (Reads.bind (reads_tagNoCase _) fun _ => he _) <| Reads.alt (hh _ _) <|
    Reads.alt (Reads.bind (reads_tagNoCase _) fun _ => Reads.bind (reads_oneOf _) fun _ => ht .expn) <| Reads.alt (hh _ _) <|
    Reads.alt (Reads.bind (reads_tagNoCase _) fun _ => Reads.bind (reads_oneOf _).opt fun _ => ht .help) <|
    Reads.alt (Reads.bind (reads_tagNoCase _) fun _ =>
      hp _ .mail ((reads_tag _).mapP.alt reads_maybeBracketedP.mapP)) <|
    Reads.alt (Reads.bind (reads_tagNoCase _) fun _ => Reads.bind (reads_oneOf _).opt fun _ => ht .noop) <|
    Reads.alt (Reads.bind (reads_tagNoCase _) fun _ => he _) <|
    Reads.alt (Reads.bind (reads_tagNoCase _) fun _ => hp _ .rcpt reads_maybeBracketedP) <|
    Reads.alt (Reads.bind (reads_tagNoCase _) fun _ => he _)
      (Reads.bind (reads_tagNoCase _) fun _ => Reads.bind (reads_oneOf _) fun _ => ht .vrfy)

theorem reads_mapRes {p : CP α} {w : α → Nat} {f : α → Option β}
    (h : ∀ i r a, (p i).2 = .done r a → i.length ≤ (p i).1 + w a + r.length) : Reads (mapRes p w f) := fun i r b e => by
  let g : α → CP β := fun a i => (w a, match f a with | some b => .done i b | none => .error)
  rcases bind_work p g i with ⟨_, _, h3⟩ | ⟨s, a, h2, h3⟩
  · exact absurd e (h3 _ _)
  · change mapRes p w f i = _ at h3
    have h4 := h i s a h2
    rw [h3] at e ⊢
    change (match f a with | some b => IRes.done s b | none => .error) = .done r b at e
    show _ ≤ _ + w a + _
    cases hf : f a <;> rw [hf] at e <;> cases e
    exact h4

theorem reads_replyP : Reads replyP := by
  have h1 : Reads (mapRes (take 3) literalWork ReplyLine.u16FromStr) := reads_mapRes fun i r a e => by
    change Nom.take 3 i = _ at e
    show _ ≤ 1 + _ + _
    unfold Nom.take at e
    split at e <;> cases e
    unfold literalWork
    rw [List.length_take, List.length_drop]
    omega
  exact Reads.bind h1.verify.mapP fun _ => Reads.bind ((reads_tag _).alt (reads_tag _)).mapP fun _ =>
    Reads.bind (reads_takeUntilAndConsume (by decide)) fun _ => reads_pure _

/-- An accepted input was read to the end. -/
theorem result_reads {p : CP α} (h : Reads p) {i : Bytes} {a : α} (e : (result (p i)).2 = .ok a) : i.length ≤ (result (p i)).1 := by
  change nomToResult (p i).2 = _ at e
  show _ ≤ (p i).1
  cases hx : (p i).2 with
  | done r b =>
    rw [hx] at e
    unfold nomToResult at e
    dsimp only at e
    split at e
    · rename_i hr
      have := h i r b hx
      omega
    · cases e
  | error => rw [hx] at e; cases e
  | incomplete => rw [hx] at e; cases e

end Verif.ParseWork
