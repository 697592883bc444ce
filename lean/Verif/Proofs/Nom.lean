import Verif.Model.Nom
import Verif.Proofs.Lines
/-
When the parsers of Model/Nom.lean return `Done`.
-/
namespace Verif.Nom
open Verif.Spec

variable {α β : Type}

theorem bind_done {p : Parser α} {f : α → Parser β} {i r : Bytes} {b : β} :
    (p >>= f) i = .done r b ↔ ∃ r' a, p i = .done r' a ∧ f a r' = .done r b := by
  change Parser.bind p f i = _ ↔ _
  unfold Parser.bind
  cases p i with
  | done r' a =>
    constructor
    · intro h; exact ⟨r', a, rfl, h⟩
    · rintro ⟨r'', a', h, h2⟩; cases h; exact h2
  | error => simp
  | incomplete => simp

theorem bind_done' {p : Parser α} {f : α → Parser β} {i r : Bytes} {b : β} :
    (p.bind f) i = .done r b ↔ ∃ r' a, p i = .done r' a ∧ f a r' = .done r b := bind_done

theorem pure_done {a : α} {i r : Bytes} {b : α} :
    (pure a : Parser α) i = .done r b ↔ r = i ∧ b = a := by
  change IRes.done i a = _ ↔ _
  simp [eq_comm]

theorem pure_done' {a : α} {i r : Bytes} {b : α} :
    (Parser.pure a : Parser α) i = .done r b ↔ r = i ∧ b = a := pure_done

theorem bind_error {p : Parser α} {f : α → Parser β} {i : Bytes} :
    (p >>= f) i = .error ↔ p i = .error ∨ ∃ r a, p i = .done r a ∧ f a r = .error := by
  change Parser.bind p f i = _ ↔ _
  unfold Parser.bind
  cases p i with
  | done r' a =>
    constructor
    · intro h; exact .inr ⟨r', a, rfl, h⟩
    · rintro (h | ⟨r'', a', h, h2⟩)
      · simp at h
      · cases h; exact h2
  | error => simp
  | incomplete => simp

theorem bind_of_done {p : Parser α} {f : α → Parser β} {i r : Bytes} {a : α} (h : p i = .done r a) :
    (p >>= f) i = f a r := by
  change Parser.bind p f i = _
  simp [Parser.bind, h]

theorem bind_of_error {p : Parser α} {f : α → Parser β} {i : Bytes} (h : p i = .error) :
    (p >>= f) i = .error := by
  change Parser.bind p f i = _
  simp [Parser.bind, h]

theorem mapP_done {p : Parser α} {f : α → β} {i r : Bytes} {b : β} :
    mapP p f i = .done r b ↔ ∃ a, p i = .done r a ∧ b = f a := by
  unfold mapP
  rw [bind_done']
  simp only [pure_done']
  constructor
  · rintro ⟨r', a, h, rfl, rfl⟩; exact ⟨a, h, rfl⟩
  · rintro ⟨a, h, rfl⟩; exact ⟨r, a, h, rfl, rfl⟩

theorem mapP_error {p : Parser α} {f : α → β} {i : Bytes} :
    mapP p f i = .error ↔ p i = .error := by
  unfold mapP Parser.bind
  cases p i <;> simp [Parser.pure]

theorem mapRes_done {p : Parser α} {f : α → Option β} {i r : Bytes} {b : β} :
    mapRes p f i = .done r b ↔ ∃ a, p i = .done r a ∧ f a = some b := by
  unfold mapRes
  rw [bind_done']
  constructor
  · rintro ⟨r', a, h, h2⟩
    cases hf : f a <;> rw [hf] at h2
    · simp [Parser.fail] at h2
    · obtain ⟨rfl, rfl⟩ := pure_done'.1 h2
      exact ⟨a, h, hf⟩
  · rintro ⟨a, h, hf⟩; exact ⟨r, a, h, by rw [hf]; exact pure_done'.2 ⟨rfl, rfl⟩⟩

theorem verify_done {p : Parser α} {f : α → Bool} {i r : Bytes} {a : α} :
    verify p f i = .done r a ↔ p i = .done r a ∧ f a = true := by
  unfold verify
  rw [bind_done']
  constructor
  · rintro ⟨r', a', h, h2⟩
    by_cases hf : f a' = true
    · rw [if_pos hf] at h2
      obtain ⟨rfl, rfl⟩ := pure_done'.1 h2
      exact ⟨h, hf⟩
    · rw [if_neg hf] at h2; simp [Parser.fail] at h2
  · rintro ⟨h, hf⟩; exact ⟨r, a, h, by rw [if_pos hf]; exact pure_done'.2 ⟨rfl, rfl⟩⟩

theorem opt_done {p : Parser α} {i r : Bytes} {x : Option α} :
    opt p i = .done r x ↔ (∃ a, x = some a ∧ p i = .done r a) ∨ (x = none ∧ r = i ∧ p i = .error) := by
  unfold opt
  cases p i with
  | done r' a =>
    constructor
    · intro h; cases h; exact .inl ⟨a, rfl, rfl⟩
    · rintro (⟨a, rfl, h⟩ | ⟨_, _, h⟩) <;> cases h; rfl
  | error => simp [eq_comm, and_comm]
  | incomplete => simp

theorem complete_done {p : Parser α} {i r : Bytes} {a : α} :
    complete p i = .done r a ↔ p i = .done r a := by
  unfold complete
  cases p i <;> simp

theorem complete_error {p : Parser α} {i : Bytes} :
    complete p i = .error ↔ ∀ r a, p i ≠ .done r a := by
  unfold complete
  cases h : p i <;> simp

theorem complete_not_incomplete {p : Parser α} {i : Bytes} : complete p i ≠ .incomplete := by
  unfold complete
  cases h : p i <;> simp

theorem alt_done {p q : Parser α} {i r : Bytes} {a : α} :
    alt p q i = .done r a ↔ p i = .done r a ∨ (p i = .error ∧ q i = .done r a) := by
  unfold alt
  cases h : p i <;> simp

theorem alt_error {p q : Parser α} {i : Bytes} :
    alt p q i = .error ↔ p i = .error ∧ q i = .error := by
  unfold alt
  cases h : p i <;> simp

theorem preceded_done {p : Parser α} {q : Parser β} {i r : Bytes} {b : β} :
    preceded p q i = .done r b ↔ ∃ r' a, p i = .done r' a ∧ q r' = .done r b := bind_done'

theorem preceded_error {p : Parser α} {q : Parser β} {i : Bytes} :
    preceded p q i = .error ↔ p i = .error ∨ ∃ r a, p i = .done r a ∧ q r = .error := bind_error

theorem recognize_done {p : Parser α} {i r x : Bytes} :
    recognize p i = .done r x ↔ ∃ a, p i = .done r a ∧ x = i.take (i.length - r.length) := by
  unfold recognize
  cases p i <;> simp
  rintro rfl; exact eq_comm

theorem recognize_error {p : Parser α} {i : Bytes} :
    recognize p i = .error ↔ p i = .error := by
  unfold recognize
  cases p i <;> simp

/-- With a parser that consumes a prefix. -/
theorem take_consumed {x r : Bytes} : (x ++ r).take ((x ++ r).length - r.length) = x := by
  simp

theorem compareBy_ok {eq : UInt8 → UInt8 → Bool} {f : UInt8 → UInt8} (hf : ∀ a b, eq a b = true ↔ f a = f b)
    {i t r : Bytes} :
    compareBy eq i t = .ok r ↔ ∃ x, i = x ++ r ∧ x.map f = t.map f := by
  fun_induction compareBy eq i t with
  | case1 i => simp [eq_comm]
  | case2 t ts => 
    simp
  | case3 c i t ts he ih =>
    rw [ih]
    constructor
    · rintro ⟨x, rfl, hx⟩; exact ⟨c :: x, rfl, by simp [hx, (hf c t).1 he]⟩
    · rintro ⟨x, hx, hm⟩
      cases x with
      | nil => simp at hm
      | cons d x =>
        simp at hx hm
        exact ⟨x, hx.2, hm.2⟩
  | case4 c i t ts he =>
    simp
    intro x hx hm
    cases x with
    | nil => simp at hm
    | cons d x =>
      simp at hx hm
      exact he ((hf c t).2 (by rw [hx.1]; exact hm.1))

theorem tagNoCase_done {t i r a : Bytes} :
    tagNoCase t i = .done r a ↔ i = a ++ r ∧ a.map lower = t.map lower := by
  have key (r) := compareBy_ok (eq := fun a b => lower a == lower b) (f := lower) (by simp) (i := i) (t := t) (r := r)
  unfold tagNoCase tagBy
  constructor
  · cases h : compareBy (fun a b => lower a == lower b) i t with
    | ok r' =>
      obtain ⟨x, rfl, hm⟩ := (key _).1 h
      have hl : x.length = t.length := by simpa using congrArg List.length hm
      simp only [← hl, List.take_left, IRes.done.injEq]
      rintro ⟨rfl, rfl⟩
      exact ⟨rfl, hm⟩
    | error => simp
    | incomplete => simp
  · rintro ⟨rfl, hm⟩
    have hl : a.length = t.length := by simpa using congrArg List.length hm
    rw [(key _).2 ⟨a, rfl, hm⟩]
    simp [← hl]

theorem tag_done {t i r a : Bytes} : tag t i = .done r a ↔ i = t ++ r ∧ a = t := by
  have key (r) := compareBy_ok (eq := (· == ·)) (f := id) (by simp) (i := i) (t := t) (r := r)
  unfold tag tagBy
  constructor
  · cases h : compareBy (· == ·) i t with
    | ok r' =>
      obtain ⟨x, rfl, hm⟩ := (key _).1 h
      simp at hm; subst hm
      simp
      rintro rfl rfl; exact ⟨rfl, rfl⟩
    | error => simp
    | incomplete => simp
  · rintro ⟨rfl, rfl⟩
    rw [(key _).2 ⟨a, rfl, rfl⟩]
    simp

theorem tag_append (t r : Bytes) : tag t (t ++ r) = .done r t := tag_done.2 ⟨rfl, rfl⟩

theorem tag_cons (c : UInt8) (r : Bytes) : tag [c] (c :: r) = .done r [c] := tag_append [c] r

/-- A tag refuses an input that starts with another byte. -/
theorem tag_head_ne {c d : UInt8} {t i : Bytes} (h : c ≠ d) : tag (d :: t) (c :: i) = .error := by
  simp [tag, tagBy, compareBy, h]

theorem tagNoCase_head_ne {c d : UInt8} {t i : Bytes} (h : lower c ≠ lower d) :
    tagNoCase (d :: t) (c :: i) = .error := by
  simp [tagNoCase, tagBy, compareBy, h]

theorem oneOf_done {s i r : Bytes} {c : UInt8} : oneOf s i = .done r c ↔ i = c :: r ∧ c ∈ s := by
  unfold oneOf
  cases i with
  | nil => simp
  | cons d i =>
    by_cases h : d ∈ s <;> simp [h]
    · constructor
      · rintro ⟨rfl, rfl⟩; simp [h]
      · rintro ⟨⟨rfl, rfl⟩, _⟩; simp
    · rintro rfl rfl; exact h

theorem oneOf_error {s i : Bytes} : oneOf s i = .error ↔ ∃ c r, i = c :: r ∧ c ∉ s := by
  unfold oneOf
  cases i with
  | nil => simp
  | cons d i =>
    by_cases h : d ∈ s <;> simp [h]

/-- `r` does not go on with a byte of `s`. -/
def StopAt (s r : Bytes) : Prop := ∀ c, r.head? = some c → c ∉ s

theorem stopAt_nil (s : Bytes) : StopAt s [] := by simp [StopAt]
theorem stopAt_cons {s r : Bytes} {c : UInt8} : StopAt s (c :: r) ↔ c ∉ s := by simp [StopAt]

theorem takeWhile_run {s a r : Bytes} (ha : ∀ c ∈ a, c ∈ s) (hr : StopAt s r) :
    (a ++ r).takeWhile s.contains = a ∧ (a ++ r).dropWhile s.contains = r := by
  induction a with
  | nil =>
    cases r with
    | nil => simp
    | cons c r => simp [stopAt_cons.1 hr]
  | cons c a ih =>
    have := ih (fun c hc => ha c (by simp [hc]))
    simp [ha c (by simp), this.1, this.2]

theorem dropWhile_stop (s i : Bytes) : StopAt s (i.dropWhile s.contains) := by
  induction i with
  | nil => simp [stopAt_nil]
  | cons c i ih =>
    by_cases h : c ∈ s
    · simp [h, ih]
    · simp [h, stopAt_cons]

theorem takeWhile_all (s i : Bytes) : ∀ c ∈ i.takeWhile s.contains, c ∈ s := by
  induction i with
  | nil => simp
  | cons c i ih =>
    by_cases h : c ∈ s
    · simp [h]; simpa using ih
    · simp [h]

theorem eatSeparator_done {s i r a : Bytes} :
    eatSeparator s i = .done r a ↔ i = a ++ r ∧ (∀ c ∈ a, c ∈ s) ∧ StopAt s r := by
  unfold eatSeparator
  simp only [IRes.done.injEq]
  constructor
  · rintro ⟨rfl, rfl⟩
    exact ⟨by simp, takeWhile_all s i, dropWhile_stop s i⟩
  · rintro ⟨rfl, ha, hr⟩
    exact ⟨(takeWhile_run ha hr).2, (takeWhile_run ha hr).1⟩

theorem isA_done {s i r a : Bytes} :
    isA s i = .done r a ↔ i = a ++ r ∧ (∀ c ∈ a, c ∈ s) ∧ StopAt s r ∧ (a = [] → r = []) := by
  cases i with
  | nil =>
    simp [isA]
    constructor
    · rintro ⟨rfl, rfl⟩; simp [stopAt_nil]
    · rintro ⟨⟨rfl, rfl⟩, _⟩; simp
  | cons c i =>
    simp only [isA]
    by_cases h : c ∈ s
    · simp only [List.contains_iff_mem, h, if_true, IRes.done.injEq]
      constructor
      · rintro ⟨rfl, rfl⟩
        refine ⟨by simp, takeWhile_all s _, dropWhile_stop s _, ?_⟩
        simp [h]
      · rintro ⟨e, ha, hr, _⟩
        rw [e]
        exact ⟨(takeWhile_run ha hr).2, (takeWhile_run ha hr).1⟩
    · simp [h]
      intro e ha hr
      cases a with
      | nil => simp at e; subst e; simp
      | cons d a =>
        simp at e ha
        exact absurd (e.1 ▸ ha.1) h

theorem isA_error {s i : Bytes} : isA s i = .error ↔ ∃ c r, i = c :: r ∧ c ∉ s := by
  cases i with
  | nil => simp [isA]
  | cons c i =>
    by_cases h : c ∈ s <;> simp [isA, h]

theorem isA_not_incomplete {s i : Bytes} : isA s i ≠ .incomplete := by
  cases i with
  | nil => simp [isA]
  | cons c i =>
    by_cases h : c ∈ s <;> simp [isA, h]

theorem take_done {n : Nat} {i r a : Bytes} : take n i = .done r a ↔ i = a ++ r ∧ a.length = n := by
  unfold take
  by_cases h : i.length < n
  · simp [h]
    rintro rfl; simp at h; omega
  · simp [h]
    constructor
    · rintro ⟨rfl, rfl⟩; simp; omega
    · rintro ⟨rfl, rfl⟩; simp

theorem findSubstring_crlf (b : Bytes) : findSubstring crlf b = findCrlf b := by
  fun_induction findCrlf b with
  | case1 a b r hc => simp [findSubstring, hc]
  | case2 a b r hc ih =>
    rw [findSubstring, if_neg, ih]
    simp [List.isPrefixOf]
    intro h h2; exact hc ⟨h.symm, h2.symm⟩
  | case3 b h =>
    match b, h with
    | [], _ => rfl
    | [c], _ => simp [findSubstring, List.isPrefixOf]
    | a :: b :: r, h => exact absurd rfl (h a b r)

theorem takeUntil_crlf {i r a : Bytes} :
    takeUntil crlf i = .done r a ↔ NoCrlf a ∧ ∃ t, r = crlf ++ t ∧ i = a ++ crlf ++ t := by
  unfold takeUntil
  rw [findSubstring_crlf]
  rcases crlf_split i with h | ⟨l, t, hl, rfl⟩
  · rw [findCrlf_none h]
    constructor
    · split <;> simp
    · rintro ⟨_, t, _, rfl⟩; exact absurd h not_noCrlf
  · rw [findCrlf_some hl, if_neg (by simp; omega)]
    simp only [IRes.done.injEq]
    constructor
    · rintro ⟨rfl, rfl⟩; exact ⟨by simpa using hl, t, by simp, by simp⟩
    · rintro ⟨ha, t', rfl, e⟩
      obtain ⟨rfl, rfl⟩ := firstCrlf_unique hl ha e
      simp

theorem takeUntilAndConsume_crlf {i r a : Bytes} :
    takeUntilAndConsume crlf i = .done r a ↔ NoCrlf a ∧ i = a ++ crlf ++ r := by
  unfold takeUntilAndConsume
  rw [findSubstring_crlf]
  rcases crlf_split i with h | ⟨l, t, hl, rfl⟩
  · rw [findCrlf_none h]
    constructor
    · split <;> simp
    · rintro ⟨_, rfl⟩; exact absurd h not_noCrlf
  · rw [findCrlf_some hl, if_neg (by simp; omega)]
    simp only [IRes.done.injEq]
    constructor
    · rintro ⟨rfl, rfl⟩; exact ⟨by simpa using hl, by simp⟩
    · rintro ⟨ha, e⟩
      obtain ⟨rfl, rfl⟩ := firstCrlf_unique hl ha e
      simp

theorem findSubstring_byte_none {c : UInt8} {i : Bytes} (h : c ∉ i) : findSubstring [c] i = none := by
  induction i with
  | nil => rfl
  | cons d i ih =>
    simp at h
    rw [findSubstring, if_neg (by simp [List.isPrefixOf, h.1]), ih h.2]; rfl

theorem findSubstring_byte_some {c : UInt8} {a r : Bytes} (h : c ∉ a) :
    findSubstring [c] (a ++ c :: r) = some a.length := by
  induction a with
  | nil => simp [findSubstring, List.isPrefixOf]
  | cons d a ih =>
    simp at h
    simp only [List.cons_append]
    rw [findSubstring, if_neg (by simp [List.isPrefixOf, h.1]), ih h.2]; rfl

theorem byte_split (c : UInt8) (i : Bytes) : c ∉ i ∨ ∃ a r, c ∉ a ∧ i = a ++ c :: r := by
  induction i with
  | nil => simp
  | cons d i ih =>
    by_cases h : c = d
    · subst h; exact .inr ⟨[], i, by simp, rfl⟩
    · rcases ih with ih | ⟨a, r, ha, rfl⟩
      · left; simp [h, ih]
      · right; exact ⟨d :: a, r, by simp [h, ha], rfl⟩

theorem takeUntilAndConsume_byte {c : UInt8} {i r a : Bytes} :
    takeUntilAndConsume [c] i = .done r a ↔ c ∉ a ∧ i = a ++ c :: r := by
  unfold takeUntilAndConsume
  rcases byte_split c i with h | ⟨l, t, hl, rfl⟩
  · rw [findSubstring_byte_none h]
    constructor
    · split <;> simp
    · rintro ⟨_, rfl⟩; simp at h
  · rw [findSubstring_byte_some hl, if_neg (by simp)]
    simp only [IRes.done.injEq]
    constructor
    · rintro ⟨rfl, rfl⟩
      refine ⟨by simpa using hl, ?_⟩
      simp [List.drop_append]
    · rintro ⟨ha, e⟩
      have h1 := findSubstring_byte_some (r := t) hl
      rw [e, findSubstring_byte_some ha] at h1
      have := List.append_inj e (by simpa using h1.symm)
      simp at this
      obtain ⟨rfl, rfl⟩ := this
      simp [List.drop_append]

end Verif.Nom
