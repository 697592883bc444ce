import Verif.Model.Readings
import Verif.Props.Waiting
/-
On a CRLF-terminated line all readings of nom (Model/Readings.lean) parse alike, up to which of the two failures is reported.
-/
namespace Verif.OnLines
open Spec Nom
variable {L : IpLib} {α β γ : Type} {R : Reading}

/-- A line as `next_crlf_line` hands it on. -/
def IsLine (i : Bytes) : Prop := ∃ x, NoCrlf x ∧ i = x ++ crlf

theorem isLine_tail {c : UInt8} {r : Bytes} (h : IsLine (c :: r)) (hc : c ≠ 13) : IsLine r := by
  obtain ⟨x, hx, e⟩ := h
  cases x with
  | nil => simp at e; exact absurd e.1 hc
  | cons d x =>
    simp at e
    obtain ⟨rfl, rfl⟩ := e
    exact ⟨x, fun hh => hx (hh.trans (List.infix_cons (List.infix_refl x))), by simp⟩

/-- Bytes without CR and LF. -/
abbrev Plain (a : Bytes) : Prop := ∀ c ∈ a, c ≠ 13 ∧ c ≠ 10

theorem isLine_rest {a r : Bytes} (h : IsLine (a ++ r)) (ha : Plain a) : IsLine r := by
  induction a with
  | nil => exact h
  | cons c a ih =>
    exact ih (isLine_tail h (ha c (by simp)).1) fun d hd => ha d (by simp [hd])

theorem isLine_long {i : Bytes} (h : IsLine i) : 2 ≤ i.length := by
  obtain ⟨x, _, rfl⟩ := h; simp

theorem isLine_lf {i : Bytes} (h : IsLine i) : (10 : UInt8) ∈ i := by
  obtain ⟨x, _, rfl⟩ := h; simp

theorem isLine_end {r : Bytes} (h : IsLine (crlf ++ r)) : r = [] := by
  obtain ⟨x, hx, e⟩ := h
  rcases x with _ | ⟨a, _ | ⟨b, x⟩⟩
  · simpa using e
  · simp at e
  · simp at e
    exact absurd ⟨[], x, by simp [← e.1, ← e.2.1]⟩ hx

/-! ### How two parsers compare on lines -/

/-- Alike, and not short of input. -/
def Same (p q : Parser α) : Prop := ∀ i, IsLine i → q i = p i ∧ p i ≠ .incomplete

/-- The same, but the second may want more where the first refuses. -/
def Near (p q : Parser α) : Prop := ∀ i, IsLine i → (q i = p i ∨ (p i = .error ∧ q i = .incomplete)) ∧ p i ≠ .incomplete

def Keeps (p : Parser α) : Prop := ∀ i r a, IsLine i → p i = .done r a → IsLine r ∧ r.length ≤ i.length

def Eats (p : Parser α) : Prop := ∀ i r a, IsLine i → p i = .done r a → IsLine r ∧ r.length < i.length

theorem Same.near {p q : Parser α} (h : Same p q) : Near p q := fun i hi => ⟨.inl (h i hi).1, (h i hi).2⟩

theorem same_pure (a : α) : Same (pure a : Parser α) (pure a) := fun _ _ => ⟨rfl, fun h => by cases h⟩

theorem same_eatSpaces : Same eatSpaces eatSpaces := fun _ _ => ⟨rfl, fun h => by cases h⟩

theorem Eats.keeps {p : Parser α} (h : Eats p) : Keeps p := fun i r a hi e => ⟨(h i r a hi e).1, Nat.le_of_lt (h i r a hi e).2⟩

theorem same_bind {p q : Parser α} {f g : α → Parser β} (h : Same p q) (hk : Keeps p) (hf : ∀ a, Same (f a) (g a)) :
    Same (p >>= f) (q >>= g) := by
  intro i hi
  show Parser.bind q g i = Parser.bind p f i ∧ Parser.bind p f i ≠ _
  unfold Parser.bind
  rw [(h i hi).1]
  cases e : p i with
  | done r a => exact hf a r (hk i r a hi e).1
  | error => exact ⟨rfl, by simp⟩
  | incomplete => exact absurd e (h i hi).2

theorem near_bind {p q : Parser α} {f g : α → Parser β} (h : Near p q) (hk : Keeps p) (hf : ∀ a, Near (f a) (g a)) :
    Near (p >>= f) (q >>= g) := by
  intro i hi
  show (Parser.bind q g i = Parser.bind p f i ∨ (Parser.bind p f i = _ ∧ Parser.bind q g i = _)) ∧ Parser.bind p f i ≠ _
  unfold Parser.bind
  rcases h i hi with ⟨h | ⟨h1, h2⟩, hn⟩
  · rw [h]
    cases e : p i with
    | done r a => exact hf a r (hk i r a hi e).1
    | error => exact ⟨.inl rfl, by simp⟩
    | incomplete => exact absurd e hn
  · rw [h1, h2]; exact ⟨.inr ⟨rfl, rfl⟩, by simp⟩

theorem keeps_pure (a : α) : Keeps (Parser.pure a) := by
  intro i r b hi e
  cases e
  exact ⟨hi, Nat.le_refl _⟩

theorem keeps_fail : Keeps (Parser.fail : Parser α) := by
  intro i r b hi e; cases e

theorem keeps_bind {p : Parser α} {f : α → Parser β} (h : Keeps p) (hf : ∀ a, Keeps (f a)) : Keeps (p >>= f) := by
  intro i r b hi e
  obtain ⟨r1, a, e1, e2⟩ := bind_done.1 e
  have h1 := h i _ _ hi e1
  have h2 := hf a _ _ _ h1.1 e2
  exact ⟨h2.1, Nat.le_trans h2.2 h1.2⟩

theorem eats_bind {p : Parser α} {f : α → Parser β} (h : Eats p) (hf : ∀ a, Keeps (f a)) : Eats (p >>= f) := by
  intro i r b hi e
  obtain ⟨r1, a, e1, e2⟩ := bind_done.1 e
  have h1 := h i _ _ hi e1
  have h2 := hf a _ _ _ h1.1 e2
  exact ⟨h2.1, Nat.lt_of_le_of_lt h2.2 h1.2⟩

theorem eats_bind' {p : Parser α} {f : α → Parser β} (h : Keeps p) (hf : ∀ a, Eats (f a)) : Eats (p >>= f) := by
  intro i r b hi e
  obtain ⟨r1, a, e1, e2⟩ := bind_done.1 e
  have h1 := h i _ _ hi e1
  have h2 := hf a _ _ _ h1.1 e2
  exact ⟨h2.1, Nat.lt_of_lt_of_le h2.2 h1.2⟩

theorem same_mapP {p q : Parser α} {f : α → β} (h : Same p q) : Same (mapP p f) (mapP q f) := by
  intro i hi
  unfold mapP Parser.bind
  rw [(h i hi).1]
  cases e : p i with
  | done r a => exact ⟨rfl, fun h => by cases h⟩
  | error => exact ⟨rfl, by simp⟩
  | incomplete => exact absurd e (h i hi).2

theorem near_mapP {p q : Parser α} {f : α → β} (h : Near p q) : Near (mapP p f) (mapP q f) := by
  intro i hi
  unfold mapP Parser.bind
  rcases h i hi with ⟨h | ⟨h1, h2⟩, hn⟩
  · rw [h]
    cases e : p i with
    | done r a => exact ⟨.inl rfl, fun h => by cases h⟩
    | error => exact ⟨.inl rfl, by simp⟩
    | incomplete => exact absurd e hn
  · rw [h1, h2]; exact ⟨.inr ⟨rfl, rfl⟩, by simp⟩

theorem eats_mapP {p : Parser α} {f : α → β} (h : Eats p) : Eats (mapP p f) := eats_bind h fun _ => keeps_pure _
theorem keeps_mapP {p : Parser α} {f : α → β} (h : Keeps p) : Keeps (mapP p f) := keeps_bind h fun _ => keeps_pure _

theorem near_mapRes {p q : Parser α} {f : α → Option β} (h : Near p q) : Near (mapRes p f) (mapRes q f) := by
  intro i hi
  unfold mapRes Parser.bind
  rcases h i hi with ⟨h | ⟨h1, h2⟩, hn⟩
  · rw [h]
    cases e : p i with
    | done r a => exact ⟨.inl rfl, by show (match f a with | some b => Parser.pure b | none => Parser.fail) r ≠ _; cases f a <;> (intro h; cases h)⟩
    | error => exact ⟨.inl rfl, by simp⟩
    | incomplete => exact absurd e hn
  · rw [h1, h2]; exact ⟨.inr ⟨rfl, rfl⟩, by simp⟩

theorem eats_mapRes {p : Parser α} {f : α → Option β} (h : Eats p) : Eats (mapRes p f) :=
  eats_bind h fun a => by
    cases f a with
    | none => exact keeps_fail
    | some b => exact keeps_pure b

theorem same_verify {p q : Parser α} {f : α → Bool} (h : Same p q) : Same (verify p f) (verify q f) := by
  intro i hi
  unfold verify Parser.bind
  rw [(h i hi).1]
  cases e : p i with
  | done r a => exact ⟨rfl, by show (if f a then Parser.pure a else Parser.fail) r ≠ _; cases f a <;> (intro h; cases h)⟩
  | error => exact ⟨rfl, by simp⟩
  | incomplete => exact absurd e (h i hi).2

theorem same_opt {p q : Parser α} (h : Same p q) : Same (opt p) (R.opt q) := by
  intro i hi
  unfold Reading.opt opt
  rw [(h i hi).1]
  cases e : p i with
  | done r a => exact ⟨rfl, by simp⟩
  | error => exact ⟨rfl, by simp⟩
  | incomplete => exact absurd e (h i hi).2

theorem keeps_opt {p : Parser α} (h : Keeps p) : Keeps (opt p) := by
  intro i r x hi e
  rcases opt_done.1 e with ⟨a, _, ea⟩ | ⟨_, rfl, _⟩
  all_goals first
    | exact h i r a hi (by assumption)
    | exact ⟨hi, Nat.le_refl _⟩

theorem same_complete {p q : Parser α} (h : Near p q) : Same (complete p) (complete q) := by
  intro i hi
  refine ⟨?_, complete_not_incomplete⟩
  unfold complete
  rcases h i hi with ⟨h | ⟨h1, h2⟩, _⟩
  · rw [h]
  · rw [h1, h2]

theorem eats_complete {p : Parser α} (h : Eats p) : Eats (complete p) :=
  fun i r a hi e => h i r a hi (complete_done.1 e)

theorem keeps_complete {p : Parser α} (h : Keeps p) : Keeps (complete p) :=
  fun i r a hi e => h i r a hi (complete_done.1 e)

theorem same_alt {p q p' q' : Parser α} (h : Same p q) (h' : Same p' q') : Same (alt p p') (R.alt q q') := by
  intro i hi
  unfold Reading.alt alt
  rw [(h i hi).1]
  cases e : p i with
  | done r a => exact ⟨rfl, by simp⟩
  | error => exact h' i hi
  | incomplete => exact absurd e (h i hi).2

theorem near_alt {p q p' q' : Parser α} (h : Near p q) (h' : Near p' q')
    (hx : ∀ i, IsLine i → p i = .error → q i = .incomplete → p' i = .error) : Near (alt p p') (R.alt q q') := by
  intro i hi
  unfold Reading.alt alt
  rcases h i hi with ⟨h | ⟨h1, h2⟩, hn⟩
  · rw [h]
    cases e : p i with
    | error => exact h' i hi
    | done r a => exact ⟨.inl rfl, by simp⟩
    | incomplete => exact absurd e hn
  · rw [h1, h2]
    cases R.altOn with
    | true => exact h' i hi
    | false => exact ⟨.inr ⟨hx i hi h1 h2, rfl⟩, (h' i hi).2⟩

theorem eats_alt {p q : Parser α} (hp : Eats p) (hq : Eats q) : Eats (alt p q) := by
  intro i r a hi e
  rcases alt_done.1 e with e | ⟨_, e⟩
  · exact hp i r a hi e
  · exact hq i r a hi e

theorem same_recognize {p q : Parser α} (h : Same p q) : Same (recognize p) (recognize q) := by
  intro i hi
  unfold recognize
  rw [(h i hi).1]
  cases e : p i with
  | done r a => exact ⟨rfl, by simp⟩
  | error => exact ⟨rfl, by simp⟩
  | incomplete => exact absurd e (h i hi).2

theorem eats_recognize {p : Parser α} (h : Eats p) : Eats (recognize p) := by
  intro i r x hi e
  unfold recognize at e
  cases ep : p i with
  | done r' a => rw [ep] at e; cases e; exact h i _ a hi ep
  | error => rw [ep] at e; cases e
  | incomplete => rw [ep] at e; cases e

/-! ### The library on lines -/

theorem compareBy_inc {eq : UInt8 → UInt8 → Bool} {i t : Bytes} (h : compareBy eq i t = .incomplete) :
    i.length < t.length ∧ ∀ c ∈ i, ∃ d ∈ t, eq c d = true := by
  fun_induction compareBy eq i t with
  | case1 i => cases h
  | case2 t ts => simp
  | case3 c i t ts he ih =>
    obtain ⟨h1, h2⟩ := ih h
    refine ⟨by simpa using h1, fun d hd => ?_⟩
    rcases List.mem_cons.1 hd with rfl | hd
    · exact ⟨t, by simp, he⟩
    · obtain ⟨d', hd', e⟩ := h2 d hd
      exact ⟨d', by simp [hd'], e⟩
  | case4 c i t ts he => cases h

theorem same_tag {t : Bytes} (ht : Plain t) : Same (tag t) (R.tag t) := by
  intro i hi
  unfold Reading.tag Reading.tagBy Nom.tag tagBy
  cases e : compareBy (· == ·) i t with
  | ok r => exact ⟨rfl, by simp⟩
  | error => exact ⟨rfl, by simp⟩
  | incomplete =>
    obtain ⟨d, hd, h⟩ := (compareBy_inc e).2 10 (isLine_lf hi)
    rw [← beq_iff_eq.1 h] at hd
    exact absurd rfl (ht 10 hd).2

theorem same_crlf : Same (tag b!"\r\n") (R.tag b!"\r\n") := by
  intro i hi
  unfold Reading.tag Reading.tagBy Nom.tag tagBy
  cases e : compareBy (· == ·) i b!"\r\n" with
  | ok r => exact ⟨rfl, by simp⟩
  | error => exact ⟨rfl, by simp⟩
  | incomplete =>
    have h1 := (compareBy_inc e).1
    have h2 := isLine_long hi
    have : (b!"\r\n" : Bytes).length = 2 := rfl
    omega

theorem lower_lf {d : UInt8} (h : lower 10 = lower d) : d = 10 := by
  revert d; decide +kernel

theorem lower_cr {c d : UInt8} (h : lower c = lower d) (hc : c = 13) : d = 13 := by
  subst hc; revert d; decide +kernel

theorem lower_lf' {c d : UInt8} (h : lower c = lower d) (hc : c = 10) : d = 10 := by
  subst hc; revert d; decide +kernel

theorem same_tagNoCase {t : Bytes} (ht : Plain t) : Same (tagNoCase t) (R.tagNoCase t) := by
  intro i hi
  unfold Reading.tagNoCase Reading.tagBy Nom.tagNoCase tagBy
  cases e : compareBy (fun a b => lower a == lower b) i t with
  | ok r => exact ⟨rfl, by simp⟩
  | error => exact ⟨rfl, by simp⟩
  | incomplete =>
    obtain ⟨d, hd, h⟩ := (compareBy_inc e).2 10 (isLine_lf hi)
    exact absurd (lower_lf (beq_iff_eq.1 h)) (ht d hd).2

theorem eats_tag {t : Bytes} (ht : Plain t) (hn : t ≠ []) : Eats (tag t) := by
  intro i r a hi e
  obtain ⟨rfl, rfl⟩ := tag_done.1 e
  refine ⟨isLine_rest hi ht, ?_⟩
  have := List.length_pos_iff.2 hn
  simp; omega

theorem eats_tagNoCase {t : Bytes} (ht : Plain t) (hn : t ≠ []) : Eats (tagNoCase t) := by
  intro i r a hi e
  obtain ⟨rfl, hm⟩ := tagNoCase_done.1 e
  have hl : a.length = t.length := by simpa using congrArg List.length hm
  have hp : Plain a := by
    intro c hc
    have : lower c ∈ t.map lower := by rw [← hm]; exact List.mem_map_of_mem hc
    obtain ⟨d, hd, ed⟩ := List.mem_map.1 this
    exact ⟨fun h => (ht d hd).1 (lower_cr ed.symm h), fun h => (ht d hd).2 (lower_lf' ed.symm h)⟩
  refine ⟨isLine_rest hi hp, ?_⟩
  have := List.length_pos_iff.2 hn
  simp; omega

theorem same_oneOf {s : Bytes} : Same (oneOf s) (R.oneOf s) := by
  intro i hi
  cases i with
  | nil => exact absurd (isLine_long hi) (by simp)
  | cons c r => exact ⟨rfl, by show (if s.contains c then IRes.done r c else .error) ≠ _; split <;> simp⟩

theorem eats_oneOf {s : Bytes} (hs : Plain s) : Eats (oneOf s) := by
  intro i r c hi e
  obtain ⟨rfl, hc⟩ := oneOf_done.1 e
  exact ⟨isLine_tail hi (hs c hc).1, by simp⟩

theorem same_isA {s : Bytes} : Same (isA s) (R.isA s) := by
  intro i hi
  cases i with
  | nil => exact absurd (isLine_long hi) (by simp)
  | cons c r => exact ⟨rfl, isA_not_incomplete⟩

theorem eats_isA {s : Bytes} (hs : Plain s) : Eats (isA s) := by
  intro i r a hi e
  obtain ⟨rfl, ha, _, hn⟩ := isA_done.1 e
  have hr := isLine_rest hi fun c hc => hs c (ha c hc)
  refine ⟨hr, ?_⟩
  have : a ≠ [] := fun h => by
    have := isLine_long hr
    rw [hn h] at this
    simp at this
  have := List.length_pos_iff.2 this
  simp; omega

theorem keeps_eatSpaces : Keeps eatSpaces := by
  intro i r a hi e
  obtain ⟨rfl, ha, _⟩ := eatSeparator_done.1 e
  have hs : Plain spacesC := by decide +kernel
  exact ⟨isLine_rest hi fun c hc => hs c (ha c hc), by simp⟩

theorem same_take {n : Nat} (hn : n ≤ 2) : Same (take n) (R.take n) := by
  intro i hi
  have := isLine_long hi
  unfold Reading.take Nom.take
  rw [if_neg (by omega), if_neg (by omega)]
  exact ⟨rfl, by simp⟩

theorem eats_verify_take {f : Bytes → Bool} (hf : ∀ c, f [c] = true → c ≠ 13 ∧ c ≠ 10) : Eats (verify (take 1) f) := by
  intro i r a hi e
  obtain ⟨e, h⟩ := verify_done.1 e
  obtain ⟨rfl, hl⟩ := take_done.1 e
  match a, hl with
  | [c], _ => exact ⟨isLine_tail hi (hf c h).1, by simp⟩

theorem takeUntil_line {x : Bytes} (hx : NoCrlf x) : R.takeUntil b!"\r\n" (x ++ crlf) = .done crlf x := by
  have hf : findSubstring crlf (x ++ crlf) = some x.length := by
    rw [findSubstring_crlf]
    have := findCrlf_some (t := []) hx
    simpa using this
  show (if (x ++ crlf).length < crlf.length then _ else _) = _
  rw [if_neg (by simp)]
  show (match findSubstring crlf (x ++ crlf) with | none => _ | some n => _) = _
  rw [hf]
  simp

theorem takeUntilAndConsume_line {x : Bytes} (hx : NoCrlf x) :
    R.takeUntilAndConsume b!"\r\n" (x ++ crlf) = .done [] x := by
  have hf : findSubstring crlf (x ++ crlf) = some x.length := by
    rw [findSubstring_crlf]
    have := findCrlf_some (t := []) hx
    simpa using this
  show (if (x ++ crlf).length < crlf.length then _ else _) = _
  rw [if_neg (by simp)]
  show (match findSubstring crlf (x ++ crlf) with | none => _ | some n => _) = _
  rw [hf]
  simp

theorem same_takeUntil : Same (takeUntil b!"\r\n") (R.takeUntil b!"\r\n") := by
  rintro _ ⟨x, hx, rfl⟩
  have e : takeUntil b!"\r\n" (x ++ crlf) = .done crlf x := takeUntil_crlf.2 ⟨hx, [], rfl, by simp⟩
  rw [takeUntil_line hx, e]
  exact ⟨rfl, by simp⟩

theorem keeps_takeUntil : Keeps (takeUntil b!"\r\n") := by
  intro i r a hi e
  obtain ⟨hx, t, rfl, rfl⟩ := takeUntil_crlf.1 e
  obtain ⟨x, hx', e'⟩ := hi
  obtain ⟨rfl, rfl⟩ := firstCrlf_unique (t := []) hx' hx (by simpa using e'.symm)
  exact ⟨⟨[], fun ⟨a, b, h⟩ => by simp at h, rfl⟩, by simp⟩

theorem same_takeUntilAndConsume : Same (takeUntilAndConsume b!"\r\n") (R.takeUntilAndConsume b!"\r\n") := by
  rintro _ ⟨x, hx, rfl⟩
  have e : takeUntilAndConsume b!"\r\n" (x ++ crlf) = .done [] x := takeUntilAndConsume_crlf.2 ⟨hx, by simp⟩
  rw [takeUntilAndConsume_line hx, e]
  exact ⟨rfl, by simp⟩

theorem near_until {c : UInt8} : Near (takeUntilAndConsume [c]) (R.takeUntilAndConsume [c]) := by
  intro i hi
  have h2 := isLine_long hi
  have h1 : ¬ i.length < ([c] : Bytes).length := by rw [List.length_singleton]; omega
  unfold Reading.takeUntilAndConsume Nom.takeUntilAndConsume
  rw [if_neg h1, if_neg h1]
  cases findSubstring [c] i with
  | some n => exact ⟨.inl rfl, by simp⟩
  | none =>
    cases R.untilMissing with
    | error => exact ⟨.inl rfl, by simp⟩
    | incomplete => exact ⟨.inr ⟨rfl, rfl⟩, by simp⟩

theorem isLine_cons {c : UInt8} {r : Bytes} (h : IsLine (c :: r)) : IsLine r ∨ r = [10] := by
  obtain ⟨x, hx, e⟩ := h
  cases x with
  | nil => simp at e; exact .inr e.2
  | cons d x =>
    simp at e
    obtain ⟨rfl, rfl⟩ := e
    exact .inl ⟨x, fun hh => hx (hh.trans (List.infix_cons (List.infix_refl x))), by simp⟩

theorem isLine_after {c : UInt8} (h1 : c ≠ 13) (h2 : c ≠ 10) {a r : Bytes} (h : IsLine (a ++ c :: r)) : IsLine r := by
  induction a with
  | nil => exact isLine_tail h h1
  | cons d a ih =>
    rcases isLine_cons h with h | h
    · exact ih h
    · exfalso
      rcases a with _ | ⟨b, a⟩
      · simp at h; exact h2 h.1
      · simp at h

theorem eats_until {c : UInt8} (h1 : c ≠ 13) (h2 : c ≠ 10) : Eats (takeUntilAndConsume [c]) := by
  intro i r a hi e
  obtain ⟨_, rfl⟩ := takeUntilAndConsume_byte.1 e
  exact ⟨isLine_after h1 h2 hi, by simp; omega⟩

/-! ### Loops -/

theorem same_many0 {p q : Parser α} (h : Same p q) (he : Eats p) : Same (many0 p) (R.many0 q) := by
  have key : ∀ n i, i.length < n → IsLine i → R.many0N q n i = many0 p i ∧ many0 p i ≠ .incomplete := by
    intro n
    induction n with
    | zero => intro i hi; omega
    | succ n ih =>
      intro i hn hi
      have hne : i ≠ [] := fun hh => by have := isLine_long hi; rw [hh] at this; simp at this
      rw [many0]
      show (if i = [] then _ else _) = _ ∧ _
      rw [if_neg hne, if_neg hne]
      unfold Reading.many0Turn
      rw [(h i hi).1]
      cases e : p i with
      | error => exact ⟨rfl, by simp⟩
      | incomplete => exact absurd e (h i hi).2
      | done r a =>
        have hr := he i r a hi e
        simp only [hr.2, if_true, dite_true]
        have hm := ih r (by omega) hr.1
        rw [hm.1]
        cases em : many0 p r with
        | incomplete => exact absurd em hm.2
        | error => exact ⟨rfl, by simp⟩
        | done r' as => exact ⟨rfl, by simp⟩
  intro i hi
  exact key _ i (Nat.lt_succ_self _) hi

theorem keeps_many0 {p : Parser α} (he : Eats p) : Keeps (many0 p) := by
  have key : ∀ n i r as, i.length < n → IsLine i → many0 p i = .done r as → IsLine r ∧ r.length ≤ i.length := by
    intro n
    induction n with
    | zero => intro i r as hi; omega
    | succ n ih =>
      intro i r as hn hi e
      have hne : i ≠ [] := fun hh => by have := isLine_long hi; rw [hh] at this; simp at this
      rw [many0, if_neg hne] at e
      cases ep : p i with
      | error => rw [ep] at e; cases e; exact ⟨hi, Nat.le_refl _⟩
      | incomplete => rw [ep] at e; cases e
      | done r1 a =>
        have hr := he i r1 a hi ep
        rw [ep] at e
        simp only [hr.2, dite_true] at e
        cases em : many0 p r1 with
        | error => rw [em] at e; cases e
        | incomplete => rw [em] at e; cases e
        | done r2 bs =>
          rw [em] at e
          cases e
          have := ih r1 _ bs (by omega) hr.1 em
          exact ⟨this.1, by omega⟩
  intro i r as hi e
  exact key _ i r as (Nat.lt_succ_self _) hi e

/-- The loop of a list, whose elements may be reported as incomplete instead of refused. -/
theorem sepLoop_near {sep sep' : Parser β} {p q : Parser α} (hs : Same sep sep') (hse : Eats sep) (h : Near p q)
    (he : Eats p) : ∀ n i, i.length < n → IsLine i →
      (R.sepLoopN sep' q n i = sepLoop sep p i ∨
      (R.sepLoopN sep' q n i = .incomplete ∧ ∃ r as i2 b, sepLoop sep p i = .done r as ∧ sep r = .done i2 b ∧
        IsLine r ∧ p i2 = .error ∧ q i2 = .incomplete)) ∧ sepLoop sep p i ≠ .incomplete := by
  intro n
  induction n with
  | zero => intro i hi; omega
  | succ n ih =>
    intro i hn hi
    rw [sepLoop]
    unfold Reading.sepLoopN
    rw [(hs i hi).1]
    cases e : sep i with
    | error => exact ⟨.inl rfl, by simp⟩
    | incomplete => exact absurd e (hs i hi).2
    | done i2 b =>
      have h2 := hse i i2 b hi e
      simp only [h2.2, if_true, dite_true]
      rcases h i2 h2.1 with ⟨hp | ⟨hp1, hp2⟩, hn2⟩
      · rw [hp]
        cases ep : p i2 with
        | error => exact ⟨.inl rfl, by simp⟩
        | incomplete => exact absurd ep hn2
        | done i3 a =>
          have h3 := he i2 i3 a h2.1 ep
          simp only [h3.2, if_true, dite_true]
          rcases ih i3 (by omega) h3.1 with ⟨hh | ⟨hh, r, as, j, b', k1, k2, k3, k4, k5⟩, hl⟩
          · rw [hh]
            cases el : sepLoop sep p i3 with
            | incomplete => exact absurd el hl
            | error => exact ⟨.inl rfl, by simp⟩
            | done r' as' => exact ⟨.inl rfl, by simp⟩
          · rw [hh, k1]
            exact ⟨.inr ⟨rfl, r, a :: as, j, b', rfl, k2, k3, k4, k5⟩, by simp⟩
      · rw [hp1, hp2]
        unfold Reading.loopInc
        cases R.loopEnds with
        | true => exact ⟨.inl rfl, by simp⟩
        | false => exact ⟨.inr ⟨rfl, i, [], i2, b, rfl, e, hi, hp1, hp2⟩, by simp⟩

theorem keeps_sepLoop {sep : Parser β} {p : Parser α} (hse : Eats sep) (he : Eats p) : Keeps (sepLoop sep p) := by
  have key : ∀ n i r as, i.length < n → IsLine i → sepLoop sep p i = .done r as → IsLine r ∧ r.length ≤ i.length := by
    intro n
    induction n with
    | zero => intro i r as hi; omega
    | succ n ih =>
      intro i r as hn hi e
      rw [sepLoop] at e
      cases es : sep i with
      | error => rw [es] at e; cases e; exact ⟨hi, Nat.le_refl _⟩
      | incomplete => rw [es] at e; cases e
      | done i2 b =>
        have h2 := hse i i2 b hi es
        rw [es] at e
        simp only [h2.2, dite_true] at e
        cases ep : p i2 with
        | error => rw [ep] at e; cases e; exact ⟨hi, Nat.le_refl _⟩
        | incomplete => rw [ep] at e; cases e
        | done i3 a =>
          have h3 := he i2 i3 a h2.1 ep
          rw [ep] at e
          simp only [h3.2, dite_true] at e
          cases el : sepLoop sep p i3 with
          | error => rw [el] at e; cases e
          | incomplete => rw [el] at e; cases e
          | done r' as' =>
            rw [el] at e
            cases e
            have := ih i3 _ as' (by omega) h3.1 el
            exact ⟨this.1, by omega⟩
  intro i r as hi e
  exact key _ i r as (Nat.lt_succ_self _) hi e

theorem same_sepNonempty {sep sep' : Parser β} {p q : Parser α} (hs : Near sep sep') (hse : Eats sep) (h : Near p q)
    (he : Eats p) : Same (separatedNonemptyListComplete sep p) (R.separatedNonemptyListComplete sep' q) := by
  intro i hi
  unfold Nom.separatedNonemptyListComplete separatedNonemptyList Reading.separatedNonemptyListComplete
  have hc := same_complete h
  rw [(hc i hi).1]
  cases e : complete p i with
  | error => exact ⟨rfl, by simp⟩
  | incomplete => exact absurd e complete_not_incomplete
  | done r a =>
    have hr := eats_complete he i r a hi e
    unfold Reading.sepRest
    simp only [hr.2, if_true]
    rcases sepLoop_near (R := R) (same_complete hs) (eats_complete hse) hc.near (eats_complete he) (r.length + 1) r
      (by omega) hr.1 with ⟨hh | ⟨_, r', as, i2, b, _, _, _, k4, k5⟩, hl⟩
    · rw [hh]
      cases el : sepLoop (complete sep) (complete p) r with
      | incomplete => exact absurd el hl
      | error => exact ⟨rfl, by simp⟩
      | done r' as => exact ⟨rfl, by simp⟩
    · exact absurd k5 complete_not_incomplete

theorem eats_sepNonempty {sep : Parser β} {p : Parser α} (hse : Eats sep) (he : Eats p) :
    Eats (separatedNonemptyListComplete sep p) := by
  intro i r as hi e
  unfold Nom.separatedNonemptyListComplete separatedNonemptyList at e
  cases ep : complete p i with
  | error => rw [ep] at e; cases e
  | incomplete => rw [ep] at e; cases e
  | done r1 a =>
    have hr := eats_complete he i r1 a hi ep
    rw [ep] at e
    simp only [hr.2, if_true] at e
    cases el : sepLoop (complete sep) (complete p) r1 with
    | error => rw [el] at e; cases e
    | incomplete => rw [el] at e; cases e
    | done r' as' =>
      rw [el] at e
      cases e
      have := keeps_sepLoop (eats_complete hse) (eats_complete he) r1 _ _ hr.1 el
      exact ⟨this.1, by omega⟩


/-! ### Domains and addresses -/

theorem plain_of_dec {a : Bytes} (h : (a.all fun c => c != 13 && c != 10) = true) : Plain a := by
  intro c hc
  have := List.all_eq_true.1 h c hc
  simpa using this

macro "plain" : term => `(plain_of_dec (by decide +kernel))

theorem same_label : Same labelP R.labelP :=
  same_bind same_oneOf (eats_oneOf plain).keeps fun _ => same_opt same_isA

theorem eats_label : Eats labelP :=
  eats_bind (eats_oneOf plain) fun _ => keeps_opt (eats_isA plain).keeps

theorem same_dot : Same (tag b!".") (R.tag b!".") := same_tag plain
theorem eats_dot : Eats (tag b!".") := eats_tag plain (by decide)

theorem near_alt_same {p q p' q' : Parser α} (h : Same p q) (h' : Near p' q') : Near (alt p p') (R.alt q q') :=
  near_alt h.near h' fun i hi h1 h2 => by rw [(h i hi).1, h1] at h2; cases h2

theorem until_inc {c : UInt8} {i : Bytes} (hi : IsLine i) (h : R.takeUntilAndConsume [c] i = .incomplete) : c ∉ i := by
  rcases byte_split c i with hh | ⟨a, r, ha, rfl⟩
  · exact hh
  · have hd : takeUntilAndConsume [c] (a ++ c :: r) = .done r a := takeUntilAndConsume_byte.2 ⟨ha, rfl⟩
    rcases (near_until (R := R) _ hi).1 with e | ⟨e, _⟩
    · rw [e, hd] at h; cases h
    · rw [hd] at e; cases e

theorem until_error {c : UInt8} {i : Bytes} (hi : IsLine i) (h : c ∉ i) : takeUntilAndConsume [c] i = .error := by
  have h2 := isLine_long hi
  have h1 : ¬ i.length < ([c] : Bytes).length := by rw [List.length_singleton]; omega
  unfold Nom.takeUntilAndConsume
  rw [if_neg h1, findSubstring_byte_none h]

theorem literal_inc {t : Bytes} {f : Bytes → Option α} {g : α → β} (ht : Plain t) {i : Bytes} (hi : IsLine i)
    (h : mapP (mapRes (preceded (R.tag t) (R.takeUntilAndConsume b!"]")) f) g i = .incomplete) :
    ∃ r, i = t ++ r ∧ (93 : UInt8) ∉ r := by
  have h1 : mapRes (preceded (R.tag t) (R.takeUntilAndConsume b!"]")) f i = .incomplete := by
    rcases bind_incomplete.1 h with h | ⟨r, a, _, h⟩
    · exact h
    · cases h
  have h2 : preceded (R.tag t) (R.takeUntilAndConsume b!"]") i = .incomplete := by
    rcases bind_incomplete.1 h1 with h | ⟨r, a, _, h⟩
    · exact h
    · cases hf : f a <;> rw [hf] at h <;> cases h
  have hs := (same_tag (R := R) ht i hi).1
  rcases bind_incomplete.1 h2 with h | ⟨r, a, h, h'⟩
  · exfalso
    unfold Reading.tag Reading.tagBy at h
    cases e : compareBy (· == ·) i t with
    | ok r => rw [e] at h; cases h
    | error => rw [e] at h; cases h
    | incomplete =>
      obtain ⟨d, hd, h⟩ := (compareBy_inc e).2 10 (isLine_lf hi)
      rw [← beq_iff_eq.1 h] at hd
      exact absurd rfl (ht 10 hd).2
  · rw [hs] at h
    obtain ⟨rfl, _⟩ := tag_done.1 h
    exact ⟨r, rfl, until_inc (isLine_rest hi ht) h'⟩

theorem near_hostname : Near (hostnameP : Parser (Domain L)) R.hostnameP := by
  refine near_alt_same (same_mapP (same_recognize (same_sepNonempty same_dot.near eats_dot same_label.near eats_label)))
    (near_alt
      (near_mapP (near_mapRes (near_bind (same_tag plain).near (eats_tag plain (by decide)).keeps fun _ => near_until)))
      (near_mapP (near_mapRes (near_bind (same_tag plain).near (eats_tag plain (by decide)).keeps fun _ => near_until)))
      ?_)
  intro i hi h1 h2
  obtain ⟨r, rfl, hr⟩ := literal_inc plain hi h2
  have hr' : IsLine (b!"IPv6:" ++ r) := isLine_rest (a := b!"[") hi plain
  refine mapP_error.2 (bind_of_error (preceded_error.2 (.inr ⟨b!"IPv6:" ++ r, b!"[", tag_append b!"[" _, ?_⟩)))
  exact until_error hr' (by simpa using hr)

theorem eats_hostname : Eats (hostnameP : Parser (Domain L)) :=
  eats_alt (eats_mapP (eats_recognize (eats_sepNonempty eats_dot eats_label)))
    (eats_alt
      (eats_mapP (eats_mapRes (eats_bind (eats_tag plain (by decide)) fun _ => (eats_until (by decide) (by decide)).keeps)))
      (eats_mapP (eats_mapRes (eats_bind (eats_tag plain (by decide)) fun _ => (eats_until (by decide) (by decide)).keeps))))

theorem same_dotString : Same dotStringP R.dotStringP :=
  same_recognize (same_sepNonempty same_dot.near eats_dot same_isA.near (eats_isA plain))

theorem eats_dotString : Eats dotStringP := eats_recognize (eats_sepNonempty eats_dot (eats_isA plain))

theorem same_quotedItem : Same quotedItemP R.quotedItemP :=
  same_alt (same_bind (same_tag plain) (eats_tag plain (by decide)).keeps fun _ => same_verify (same_take (by decide)))
    (same_verify (same_take (by decide)))

theorem eats_quotedItem : Eats quotedItemP := by
  refine eats_alt (eats_bind (eats_tag plain (by decide)) fun _ => (eats_verify_take ?_).keeps) (eats_verify_take ?_)
  · decide +kernel
  · decide +kernel

theorem same_quotedString : Same quotedStringP R.quotedStringP :=
  same_recognize (same_bind (same_tag plain) (eats_tag plain (by decide)).keeps fun _ =>
    same_bind (same_many0 same_quotedItem eats_quotedItem) (keeps_many0 eats_quotedItem) fun _ =>
      same_bind (same_tag plain) (eats_tag plain (by decide)).keeps fun _ => same_pure _)

theorem eats_quotedString : Eats quotedStringP :=
  eats_recognize (eats_bind (eats_tag plain (by decide)) fun _ =>
    keeps_bind (keeps_many0 eats_quotedItem) fun _ =>
      keeps_bind (eats_tag plain (by decide)).keeps fun _ => keeps_pure _)

theorem same_localpart : Same localpartP R.localpartP := same_alt same_quotedString same_dotString

theorem eats_localpart : Eats localpartP := eats_alt eats_quotedString eats_dotString

theorem keeps_at : Keeps (preceded (tag b!"@") (hostnameP : Parser (Domain L))) :=
  (eats_bind (eats_tag plain (by decide)) fun _ => eats_hostname.keeps).keeps

theorem same_email : Same (emailP : Parser (Email L)) R.emailP :=
  same_bind same_localpart eats_localpart.keeps fun _ =>
    same_bind
      (same_opt (same_complete (near_bind (same_tag plain).near (eats_tag plain (by decide)).keeps fun _ => near_hostname)))
      (keeps_opt (keeps_complete keeps_at)) fun _ => same_pure _

theorem eats_email : Eats (emailP : Parser (Email L)) :=
  eats_bind eats_localpart fun _ => keeps_bind (keeps_opt (keeps_complete keeps_at)) fun _ => keeps_pure _

theorem near_hop : Near (hopP L) (R.hopP L) :=
  near_bind (same_tag plain).near (eats_tag plain (by decide)).keeps fun _ =>
    near_bind near_hostname eats_hostname.keeps fun _ => (same_pure _).near

theorem eats_hop : Eats (hopP L) :=
  eats_bind (eats_tag plain (by decide)) fun _ => keeps_bind eats_hostname.keeps fun _ => keeps_pure _

/-- What begins with `t` in one reading does so in the other. -/
theorem begun {t : Bytes} {f : Bytes → Parser α} (ht : Plain t) {i : Bytes} (hi : IsLine i)
    (h : (R.tag t >>= f) i ≠ .error) : ∃ r, i = t ++ r := by
  cases e : tag t i with
  | done r a => exact ⟨r, (tag_done.1 e).1⟩
  | error =>
    exact absurd (bind_of_error (p := R.tag t) (f := f) (by rw [(same_tag ht i hi).1, e])) h
  | incomplete =>
    have e' := e
    unfold Nom.tag tagBy at e'
    cases ec : compareBy (· == ·) i t with
    | ok r => rw [ec] at e'; cases e'
    | error => rw [ec] at e'; cases e'
    | incomplete =>
      obtain ⟨d, hd, h⟩ := (compareBy_inc ec).2 10 (isLine_lf hi)
      rw [← beq_iff_eq.1 h] at hd
      exact absurd rfl (ht 10 hd).2

theorem hop_begun {i r : Bytes} {u : Unit} (h : hopP L i = .done r u) : ∃ r, i = b!"@" ++ r := by
  obtain ⟨r, a, h, _⟩ := bind_done.1 h
  exact ⟨r, (tag_done.1 h).1⟩

theorem near_route {i : Bytes} (hi : IsLine i) : (R.routeP L i = routeP L i ∨
    (routeP L i = .error ∧ R.routeP L i = .incomplete ∧ ∃ r, i = b!"@" ++ r)) ∧ routeP L i ≠ .incomplete := by
  let cp : Parser Unit := tag b!":" >>= fun _ => pure ()
  let cq : Parser Unit := R.tag b!":" >>= fun _ => pure ()
  have hcolon : Same cp cq := same_bind (same_tag plain) (eats_tag plain (by decide)).keeps (fun _ => same_pure _)
  show (Parser.bind (R.separatedList (R.tag b!",") (R.hopP L)) (fun _ => cq) i =
      Parser.bind (separatedList (tag b!",") (hopP L)) (fun _ => cp) i ∨
    Parser.bind (separatedList (tag b!",") (hopP L)) (fun _ => cp) i = _ ∧
      Parser.bind (R.separatedList (R.tag b!",") (R.hopP L)) (fun _ => cq) i = _ ∧ _) ∧
    Parser.bind (separatedList (tag b!",") (hopP L)) (fun _ => cp) i ≠ _
  unfold Parser.bind Reading.separatedList separatedList
  rcases near_hop (R := R) (L := L) i hi with ⟨h | ⟨h1, h2⟩, hn⟩
  · rw [h]
    cases e : hopP L i with
    | error => exact ⟨.inl (hcolon i hi).1, (hcolon i hi).2⟩
    | incomplete => exact absurd e hn
    | done r u =>
      have hr := eats_hop i r u hi e
      unfold Reading.sepRest
      simp only [hr.2, if_true]
      have hl := sepLoop_near (R := R) (sep := tag b!",") (sep' := R.tag b!",") (same_tag plain)
        (eats_tag plain (by decide)) (near_hop (R := R)) (eats_hop (L := L)) (r.length + 1) r (by omega) hr.1
      rcases hl with ⟨hl | ⟨hl, r', as, i2, b, k1, k2, k3, _, _⟩, hln⟩
      · rw [hl]
        cases el : sepLoop (tag b!",") (hopP L) r with
        | error => exact ⟨.inl rfl, by simp⟩
        | incomplete => exact absurd el hln
        | done r' as =>
          have hc := hcolon r' (keeps_sepLoop (eats_tag plain (by decide)) eats_hop r r' as hr.1 el).1
          exact ⟨.inl hc.1, hc.2⟩
      · rw [hl, k1]
        obtain ⟨rfl, _⟩ := tag_done.1 k2
        have he : cp (b!"," ++ i2) = .error := bind_of_error (tag_head_ne (by decide))
        exact ⟨.inr ⟨he, rfl, hop_begun e⟩, by show cp _ ≠ _; rw [he]; simp⟩
  · rw [h1, h2]
    obtain ⟨r, rfl⟩ := begun (R := R) (t := b!"@") plain hi (by rw [show (R.tag b!"@" >>= _) _ = _ from h2]; simp)
    have he : cp (b!"@" ++ r) = .error := bind_of_error (tag_head_ne (by decide))
    unfold Reading.loopInc
    cases R.loopEnds with
    | true => exact ⟨.inl (hcolon _ hi).1, (hcolon _ hi).2⟩
    | false => exact ⟨.inr ⟨he, rfl, r, rfl⟩, by show cp _ ≠ _; rw [he]; simp⟩

theorem keeps_sepList {sep : Parser β} {p : Parser α} (hse : Eats sep) (he : Eats p) : Keeps (separatedList sep p) := by
  intro i r as hi e
  unfold separatedList at e
  cases ep : p i with
  | error => rw [ep] at e; cases e; exact ⟨hi, Nat.le_refl _⟩
  | incomplete => rw [ep] at e; cases e
  | done r1 a =>
    have hr := he i r1 a hi ep
    rw [ep] at e
    simp only [hr.2, if_true] at e
    cases el : sepLoop sep p r1 with
    | error => rw [el] at e; cases e
    | incomplete => rw [el] at e; cases e
    | done r' as' =>
      rw [el] at e
      cases e
      have := keeps_sepLoop hse he r1 _ _ hr.1 el
      exact ⟨this.1, by omega⟩

theorem keeps_route : Keeps (routeP L) :=
  keeps_bind (keeps_sepList (eats_tag plain (by decide)) eats_hop) fun _ =>
    keeps_bind (eats_tag plain (by decide)).keeps fun _ => keeps_pure _

/-- No address begins with a byte that begins no local part. -/
theorem email_error {c : UInt8} {r : Bytes} (h1 : c ≠ 34) (h2 : c ∉ atextC) : (emailP : Parser (Email L)) (c :: r) = .error := by
  refine bind_of_error (alt_error.2 ⟨recognize_error.2 (bind_of_error (tag_head_ne h1)), recognize_error.2 ?_⟩)
  unfold Nom.separatedNonemptyListComplete separatedNonemptyList
  have : complete (isA atextC) (c :: r) = .error := by
    unfold complete
    rw [isA_error.2 ⟨c, r, rfl, h2⟩]
  rw [this]

theorem near_address : Near (addressInPathP : Parser (Email L)) R.addressInPathP := by
  intro i hi
  show (Parser.bind (R.opt (R.routeP L)) (fun _ => R.emailP) i = Parser.bind (opt (routeP L)) (fun _ => emailP) i ∨
    Parser.bind (opt (routeP L)) (fun _ => emailP) i = _ ∧ Parser.bind (R.opt (R.routeP L)) (fun _ => R.emailP) i = _) ∧
    Parser.bind (opt (routeP L)) (fun _ => emailP) i ≠ _
  unfold Parser.bind
  rcases near_route (R := R) (L := L) hi with ⟨h | ⟨h1, h2, r, rfl⟩, hn⟩
  · have ho : R.opt (R.routeP L) i = opt (routeP L) i ∧ opt (routeP L) i ≠ .incomplete := by
      unfold Reading.opt opt
      rw [h]
      cases e : routeP L i with
      | incomplete => exact absurd e hn
      | error => exact ⟨rfl, by simp⟩
      | done r a => exact ⟨rfl, by simp⟩
    rw [ho.1]
    cases e : opt (routeP L) i with
    | error => exact ⟨.inl rfl, by simp⟩
    | incomplete => exact absurd e ho.2
    | done r x =>
      have := same_email (R := R) (L := L) r (keeps_opt keeps_route i r x hi e).1
      exact ⟨.inl this.1, this.2⟩
  · have o1 : opt (routeP L) (b!"@" ++ r) = .done (b!"@" ++ r) none := by unfold opt; rw [h1]
    have o2 : R.opt (R.routeP L) (b!"@" ++ r) = if R.optNone then .done (b!"@" ++ r) none else .incomplete := by
      unfold Reading.opt; rw [h2]
    have he : (emailP : Parser (Email L)) (b!"@" ++ r) = .error := email_error (by decide) (by decide +kernel)
    rw [o1, o2]
    cases R.optNone with
    | true =>
      have := same_email (R := R) (L := L) _ hi
      exact ⟨.inl this.1, this.2⟩
    | false => exact ⟨.inr ⟨he, rfl⟩, by show emailP _ ≠ _; rw [he]; simp⟩

theorem eats_address : Eats (addressInPathP : Parser (Email L)) :=
  eats_bind' (keeps_opt keeps_route) fun _ => eats_email

theorem address_error {r : Bytes} : (addressInPathP : Parser (Email L)) (60 :: r) = .error := by
  have hh : hopP L (60 :: r) = .error := bind_of_error (tag_head_ne (by decide))
  have hs : separatedList (tag b!",") (hopP L) (60 :: r) = .done (60 :: r) [] := by
    unfold separatedList
    rw [hh]
  have hr : routeP L (60 :: r) = .error := (bind_of_done hs).trans (bind_of_error (tag_head_ne (by decide)))
  have ho : opt (routeP L) (60 :: r) = .done (60 :: r) none := by unfold opt; rw [hr]
  exact (bind_of_done ho).trans (email_error (by decide) (by decide +kernel))

theorem near_maybeBracketed : Near (maybeBracketedP : Parser (Email L)) R.maybeBracketedP := by
  refine near_alt (near_bind (same_tag plain).near (eats_tag plain (by decide)).keeps fun _ =>
    near_bind near_address eats_address.keeps fun _ =>
      (same_bind (same_tag plain) (eats_tag plain (by decide)).keeps fun _ => same_pure _).near) near_address ?_
  intro i hi _ h2
  obtain ⟨r, rfl⟩ := begun (R := R) (t := b!"<") plain hi (by rw [h2]; simp)
  exact address_error

theorem eats_maybeBracketed : Eats (maybeBracketedP : Parser (Email L)) :=
  eats_alt (eats_bind (eats_tag plain (by decide)) fun _ => keeps_bind eats_address.keeps fun _ =>
    keeps_bind (eats_tag plain (by decide)).keeps fun _ => keeps_pure _) eats_address

/-! ### Parameters and commands -/

theorem same_param : Same paramP R.paramP :=
  same_bind same_oneOf (eats_oneOf plain).keeps fun _ =>
    same_bind same_eatSpaces keeps_eatSpaces fun _ =>
      same_bind (same_recognize (same_bind same_oneOf (eats_oneOf plain).keeps fun _ => same_opt same_isA))
        (eats_recognize (eats_bind (eats_oneOf plain) fun _ => keeps_opt (eats_isA plain).keeps)).keeps fun _ =>
        same_bind (same_opt (same_complete (same_bind (same_tag plain) (eats_tag plain (by decide)).keeps fun _ => same_isA).near))
          (keeps_opt (keeps_complete (eats_bind (eats_tag plain (by decide)) fun _ => (eats_isA plain).keeps).keeps))
          fun _ => same_pure _

theorem eats_param : Eats paramP :=
  eats_bind (eats_oneOf plain) fun _ => keeps_bind keeps_eatSpaces fun _ =>
    keeps_bind (eats_recognize (eats_bind (eats_oneOf plain) fun _ => keeps_opt (eats_isA plain).keeps)).keeps fun _ =>
      keeps_bind (keeps_opt (keeps_complete (eats_bind (eats_tag plain (by decide)) fun _ => (eats_isA plain).keeps).keeps))
        fun _ => keeps_pure _

theorem same_parameters : Same parametersP R.parametersP :=
  same_bind (same_many0 same_param eats_param) (keeps_many0 eats_param) fun _ => same_pure _

theorem keeps_parameters : Keeps parametersP := keeps_bind (keeps_many0 eats_param) fun _ => keeps_pure _

/-- After CRLF a line has ended. -/
theorem same_end {f g : Parser α} (h : g [] = f []) (hn : f [] ≠ .incomplete) : Same (tag b!"\r\n" >>= fun _ => f) (R.tag b!"\r\n" >>= fun _ => g) := by
  intro i hi
  show Parser.bind (R.tag b!"\r\n") (fun _ => g) i = Parser.bind (tag b!"\r\n") (fun _ => f) i ∧
    Parser.bind (tag b!"\r\n") (fun _ => f) i ≠ _
  unfold Parser.bind
  rw [(same_crlf i hi).1]
  cases e : tag b!"\r\n" i with
  | error => exact ⟨rfl, by simp⟩
  | incomplete => exact absurd e (same_crlf (R := R) i hi).2
  | done r a =>
    obtain ⟨rfl, _⟩ := tag_done.1 e
    have := isLine_end hi
    subst this
    exact ⟨h, hn⟩

theorem same_bare {verb : Bytes} (hv : Plain verb) (hn : verb ≠ []) {c : Command L} :
    Same (do let _ ← tagNoCase verb; let _ ← eatSpaces; let _ ← crlfP; return c) (R.bareArgs verb c) :=
  same_bind (same_tagNoCase hv) (eats_tagNoCase hv hn).keeps fun _ =>
    same_bind same_eatSpaces keeps_eatSpaces fun _ => same_end rfl (fun h => by cases h)

theorem same_text {verb : Bytes} (hv : Plain verb) (hn : verb ≠ []) {f : Bytes → Command L} :
    Same (do let _ ← tagNoCase verb; let _ ← oneOf spacesC; let res ← takeUntil b!"\r\n"; let _ ← tag b!"\r\n"; return f res)
      (R.textArgs verb f) :=
  same_bind (same_tagNoCase hv) (eats_tagNoCase hv hn).keeps fun _ =>
    same_bind same_oneOf (eats_oneOf plain).keeps fun _ =>
      same_bind same_takeUntil keeps_takeUntil fun _ => same_end rfl (fun h => by cases h)

theorem same_optText {verb : Bytes} (hv : Plain verb) (hn : verb ≠ []) {f : Bytes → Command L} :
    Same (do
        let _ ← tagNoCase verb; let _ ← opt (oneOf spacesC); let res ← takeUntil b!"\r\n"; let _ ← tag b!"\r\n"
        return f res)
      (R.optTextArgs verb f) :=
  same_bind (same_tagNoCase hv) (eats_tagNoCase hv hn).keeps fun _ =>
    same_bind (same_opt same_oneOf) (keeps_opt (eats_oneOf plain).keeps) fun _ =>
      same_bind same_takeUntil keeps_takeUntil fun _ => same_end rfl (fun h => by cases h)

theorem near_hello {verb : Bytes} (hv : Plain verb) (hn : verb ≠ []) {f : Domain L → Command L} :
    Near (do
        let _ ← eatSpaces; let _ ← tagNoCase verb; let _ ← eatSpaces; let domain ← hostnameP; let _ ← eatSpaces
        let _ ← tag b!"\r\n"
        return f domain)
      (R.helloArgs verb f) :=
  near_bind same_eatSpaces.near keeps_eatSpaces fun _ =>
    near_bind (same_tagNoCase hv).near (eats_tagNoCase hv hn).keeps fun _ =>
      near_bind same_eatSpaces.near keeps_eatSpaces fun _ =>
        near_bind near_hostname eats_hostname.keeps fun _ =>
          near_bind same_eatSpaces.near keeps_eatSpaces fun _ => (same_end (by
            cases R.sepAfter <;> rfl) (fun h => by cases h)).near

theorem near_mail : Near (mailArgs : Parser (Command L)) R.mailArgs :=
  near_bind (same_tagNoCase plain).near (eats_tagNoCase plain (by decide)).keeps fun _ =>
    near_bind same_eatSpaces.near keeps_eatSpaces fun _ =>
      near_bind (near_alt_same (same_mapP (same_tag plain)) (near_mapP near_maybeBracketed))
        (eats_alt (eats_mapP (eats_tag plain (by decide))) (eats_mapP eats_maybeBracketed)).keeps fun _ =>
        (same_bind same_parameters keeps_parameters fun _ =>
          same_bind same_eatSpaces keeps_eatSpaces fun _ => same_end rfl (fun h => by cases h)).near

theorem near_rcpt : Near (rcptArgs : Parser (Command L)) R.rcptArgs :=
  near_bind (same_tagNoCase plain).near (eats_tagNoCase plain (by decide)).keeps fun _ =>
    near_bind same_eatSpaces.near keeps_eatSpaces fun _ =>
      near_bind near_maybeBracketed eats_maybeBracketed.keeps fun _ =>
        (same_bind same_parameters keeps_parameters fun _ =>
          same_bind same_eatSpaces keeps_eatSpaces fun _ => same_end rfl (fun h => by cases h)).near

/-! ### All commands -/

/-- An alternative in two readings: alike, or the second wants more of a line that begins with `w`. -/
def Arm (p q : Parser (Command L)) (w : Bytes) : Prop :=
  Begins p w ∧ ∀ i, IsLine i → (q i = p i ∨ (p i = .error ∧ q i = .incomplete ∧ head4 i = w)) ∧ p i ≠ .incomplete

theorem begun_verb {t : Bytes} {f : Bytes → Parser α} (ht : Plain t) {i : Bytes} (hi : IsLine i)
    (h : (R.tagNoCase t >>= f) i ≠ .error) : ∃ r a, tagNoCase t i = .done r a := by
  cases e : tagNoCase t i with
  | done r a => exact ⟨r, a, rfl⟩
  | error => exact absurd (bind_of_error (p := R.tagNoCase t) (f := f) (by rw [(same_tagNoCase ht i hi).1, e])) h
  | incomplete =>
    have e' := e
    unfold Nom.tagNoCase tagBy at e'
    cases ec : compareBy (fun a b => lower a == lower b) i t with
    | ok r => rw [ec] at e'; cases e'
    | error => rw [ec] at e'; cases e'
    | incomplete =>
      obtain ⟨d, hd, h⟩ := (compareBy_inc ec).2 10 (isLine_lf hi)
      exact absurd (lower_lf (beq_iff_eq.1 h)) (ht d hd).2

theorem arm_same {p q : Parser (Command L)} {w : Bytes} (hb : Begins p w) (h : Same p q) : Arm p q w :=
  ⟨hb, fun i hi => ⟨.inl (h i hi).1, (h i hi).2⟩⟩

theorem arm_verb {p : Parser (Command L)} {t0 : UInt8} {ts : Bytes} {f : Bytes → Parser (Command L)}
    (ht : 97 ≤ lower t0 ∧ lower t0 ≤ 122) (h4 : 4 ≤ (t0 :: ts).length) (hp : Plain (t0 :: ts))
    (hb : Begins p (((t0 :: ts).take 4).map lower)) (h : Near p (R.tagNoCase (t0 :: ts) >>= f)) :
    Arm p (R.tagNoCase (t0 :: ts) >>= f) (((t0 :: ts).take 4).map lower) := by
  refine ⟨hb, fun i hi => ⟨?_, (h i hi).2⟩⟩
  rcases (h i hi).1 with h | ⟨h1, h2⟩
  · exact .inl h
  · obtain ⟨r, a, e⟩ := begun_verb hp hi (by rw [h2]; simp)
    exact .inr ⟨h1, h2, (begins_verb (f := fun x => Parser.pure x) ht h4 i).2 r a (by rw [bind_of_done e]; rfl)⟩

theorem arm_hello {p : Parser (Command L)} {t : Bytes} {f : Bytes → Parser (Command L)} (h4 : 4 ≤ t.length) (hp : Plain t)
    (hb : Begins p ((t.take 4).map lower)) (h : Near p (eatSpaces >>= fun _ => R.tagNoCase t >>= f)) :
    Arm p (eatSpaces >>= fun _ => R.tagNoCase t >>= f) ((t.take 4).map lower) := by
  refine ⟨hb, fun i hi => ⟨?_, (h i hi).2⟩⟩
  rcases (h i hi).1 with h | ⟨h1, h2⟩
  · exact .inl h
  · have he : eatSpaces i = .done (i.dropWhile spacesC.contains) (i.takeWhile spacesC.contains) := rfl
    have hi' := (keeps_eatSpaces i _ _ hi he).1
    rw [bind_of_done he] at h2
    obtain ⟨r, a, e⟩ := begun_verb hp hi' (by rw [h2]; simp)
    refine .inr ⟨h1, by rw [bind_of_done he]; exact h2, ?_⟩
    exact (begins_hello (f := fun x => Parser.pure x) h4 i).2 r a (by rw [bind_of_done he, bind_of_done e]; rfl)

/-- The alternatives in the two readings. -/
def armsW (R : Reading) (L : IpLib) : List ((Parser (Command L) × Bytes) × Parser (Command L)) :=
  (alternativesW L).zip (R.alternatives L)

theorem arms : ∀ e ∈ armsW R L, Arm e.1.1 e.2 e.1.2 := by
  have hb := alternatives_begin (L := L)
  intro e he
  have hbe := hb e.1 (List.of_mem_zip he).1
  simp only [armsW, alternativesW, Reading.alternatives, List.zip_cons_cons, List.zip_nil_right, List.mem_cons,
    List.not_mem_nil, or_false] at he
  rcases he with rfl | rfl | rfl | rfl | rfl | rfl | rfl | rfl | rfl | rfl | rfl
  · exact arm_same hbe (same_bare plain (by decide))
  · exact arm_hello (t := b!"EHLO") (by decide) plain hbe (near_hello plain (by decide))
  · exact arm_same hbe (same_text plain (by decide))
  · exact arm_hello (t := b!"HELO") (by decide) plain hbe (near_hello plain (by decide))
  · exact arm_same hbe (same_optText plain (by decide))
  · exact arm_verb (t0 := 77) (ts := b!"AIL FROM:") (by decide) (by decide) plain hbe near_mail
  · exact arm_same hbe (same_optText plain (by decide))
  · exact arm_same hbe (same_bare plain (by decide))
  · exact arm_verb (t0 := 82) (ts := b!"CPT TO:") (by decide) (by decide) plain hbe near_rcpt
  · exact arm_same hbe (same_bare plain (by decide))
  · exact arm_same hbe (same_text plain (by decide))

/-- What a parser yields, if anything. -/
def doneOf : IRes α → Option (Bytes × α)
  | .done r a => some (r, a)
  | _ => none

theorem foldr_arms {l : List ((Parser (Command L) × Bytes) × Parser (Command L))}
    (hl : ∀ e ∈ l, Arm e.1.1 e.2 e.1.2) (hn : (l.map (·.1.2)).Nodup) {i : Bytes} (hi : IsLine i) :
    doneOf ((l.map (·.2)).foldr R.alt Parser.fail i) = doneOf ((l.map (·.1.1)).foldr alt Parser.fail i) := by
  induction l with
  | nil => rfl
  | cons e l ih =>
    simp only [List.map_cons, List.nodup_cons] at hn
    have ih := ih (fun e he => hl e (by simp [he])) hn.2
    simp only [List.map_cons, List.foldr_cons]
    have hn1 := ((hl e (by simp)).2 i hi).2
    rcases ((hl e (by simp)).2 i hi).1 with h | ⟨h1, h2, h3⟩
    · show doneOf (R.alt e.2 _ i) = doneOf (alt e.1.1 _ i)
      unfold Reading.alt alt
      rw [h]
      cases ee : e.1.1 i with
      | error => exact ih
      | done r a => rfl
      | incomplete => exact absurd ee hn1
    · have e1 : R.alt e.2 ((l.map (·.2)).foldr R.alt Parser.fail) i =
          if R.altOn then (l.map (·.2)).foldr R.alt Parser.fail i else .incomplete := by unfold Reading.alt; rw [h2]
      have e2 : alt e.1.1 ((l.map (·.1.1)).foldr alt Parser.fail) i = (l.map (·.1.1)).foldr alt Parser.fail i := by
        unfold alt; rw [h1]
      rw [e1, e2]
      cases R.altOn with
      | true => exact ih
      | false =>
        cases ef : (l.map (·.1.1)).foldr alt Parser.fail i with
        | error => rfl
        | incomplete => rfl
        | done r c =>
          exfalso
          obtain ⟨p, hp, hd⟩ := foldr_alt_some ef
          obtain ⟨e', he', rfl⟩ := List.mem_map.1 hp
          have := ((hl e' (by simp [he'])).1 i).2 r c hd
          rw [h3] at this
          exact hn.1 (List.mem_map.2 ⟨e', he', this.symm⟩)

theorem command_alike {i : Bytes} (hi : IsLine i) :
    doneOf ((R.commandP : Parser (Command L)) i) = doneOf ((commandP : Parser (Command L)) i) := by
  rw [commandP_foldr]
  exact foldr_arms (l := armsW R L) arms (by
    show [b!"data", b!"ehlo", b!"expn", b!"helo", b!"help", b!"mail", b!"noop", b!"quit", b!"rcpt", b!"rset", b!"vrfy"].Nodup
    decide) hi

theorem toOption_doneOf {x y : IRes α} (h : doneOf x = doneOf y) : (nomToResult x).toOption = (nomToResult y).toOption := by
  cases x <;> cases y <;> simp_all [doneOf, nomToResult, Except.toOption]

end Verif.OnLines
