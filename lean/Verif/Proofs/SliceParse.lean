import Verif.Props.ByteSlice
import Verif.Model.SliceParse
/-
Each parser on slices refines the parser on bytes: combinators.
-/
namespace Verif.SliceParse
open ByteSlice Spec

variable {α β γ δ : Type}

/-- The parser on slices behaves like the parser on the visible bytes, for every slice inside its buffer. -/
def RefP (v : α → β → Prop) (P : BP α) (Q : Nom.Parser β) : Prop :=
  ∀ s, InBuffer s → Refines v s (P s) (Q (visible s))

/-- A slice value inside its buffer, showing `b`. -/
def Sh (a : ByteSlice) (b : Bytes) : Prop := InBuffer a ∧ visible a = b

theorem within_inBuffer {t s : ByteSlice} (h : Within t s) (hs : InBuffer s) : InBuffer t := by
  obtain ⟨h1, h2, h3, h4, h5⟩ := h
  exact ⟨h4, by rw [h2]; exact Nat.le_trans h5 hs.2⟩

theorem within_trans {a b c : ByteSlice} (h : Within a b) (h' : Within b c) : Within a c := by
  obtain ⟨h1, h2, h3, h4, h5⟩ := h
  obtain ⟨k1, k2, k3, k4, k5⟩ := h'
  exact ⟨h1.trans k1, h2.trans k2, by omega, h4, by omega⟩

theorem within_refl {s : ByteSlice} (h : InBuffer s) : Within s s := ⟨rfl, rfl, by omega, h.1, by omega⟩

/-- Refinement, by cases. -/
theorem refines_iff {v : α → β → Prop} {s : ByteSlice} {r : Option (BRes α)} {x : Nom.IRes β} :
    Refines v s r x ↔
      (r = some .error ∧ x = .error) ∨ (r = some .incomplete ∧ x = .incomplete) ∨
      ∃ rest a b, r = some (.done rest a) ∧ x = .done (visible rest) b ∧ Within rest s ∧ rest.stop = s.stop ∧ v a b := by
  constructor
  · intro h
    match r, x, h with
    | some (.done rest a), .done rest' b, h =>
      obtain ⟨h1, h2, rfl, h4⟩ := h
      exact .inr (.inr ⟨rest, a, b, rfl, rfl, h1, h2, h4⟩)
    | some .error, .error, _ => exact .inl ⟨rfl, rfl⟩
    | some .incomplete, .incomplete, _ => exact .inr (.inl ⟨rfl, rfl⟩)
  · rintro (⟨rfl, rfl⟩ | ⟨rfl, rfl⟩ | ⟨rest, a, b, rfl, rfl, h1, h2, h3⟩)
    · trivial
    · trivial
    · exact ⟨h1, h2, rfl, h3⟩

theorem refines_done {v : α → β → Prop} {s : ByteSlice} (hs : InBuffer s) {a : α} {b : β} (h : v a b) :
    Refines v s (some (.done s a)) (.done (visible s) b) := ⟨within_refl hs, rfl, rfl, h⟩

theorem refines_mono {v w : α → β → Prop} {s : ByteSlice} {r x} (h : Refines v s r x) (hv : ∀ a b, v a b → w a b) :
    Refines w s r x := by
  rw [refines_iff] at h ⊢
  rcases h with h | h | ⟨rest, a, b, h1, h2, h3, h4, h5⟩
  · exact .inl h
  · exact .inr (.inl h)
  · exact .inr (.inr ⟨rest, a, b, h1, h2, h3, h4, hv _ _ h5⟩)

theorem refines_widen {v : α → β → Prop} {s t : ByteSlice} {r x} (h : Refines v t r x) (ht : Within t s)
    (hst : t.stop = s.stop) : Refines v s r x := by
  rw [refines_iff] at h ⊢
  rcases h with h | h | ⟨rest, a, b, h1, h2, h3, h4, h5⟩
  · exact .inl h
  · exact .inr (.inl h)
  · exact .inr (.inr ⟨rest, a, b, h1, h2, within_trans h3 ht, h4.trans hst, h5⟩)

theorem refP_shows {P : BP ByteSlice} {Q : Nom.Parser Bytes}
    (h : ∀ s, InBuffer s → Refines (Shows s) s (P s) (Q (visible s))) : RefP Sh P Q := fun s hs =>
  refines_mono (h s hs) fun _ _ hv => ⟨within_inBuffer hv.1 hs, hv.2⟩

theorem refP_tag (t : Bytes) : RefP Sh (tag t) (Nom.tag t) := refP_shows (c41_tag _ t)
theorem refP_tagNoCase (t : Bytes) : RefP Sh (tagNoCase t) (Nom.tagNoCase t) := refP_shows (c41_tag _ t)
theorem refP_oneOf (t : Bytes) : RefP (· = ·) (oneOf t) (Nom.oneOf t) := c41_one_of t
theorem refP_isA (t : Bytes) : RefP Sh (isA t) (Nom.isA t) := refP_shows (c41_is_a t)
theorem refP_eatSpaces : RefP Sh eatSpaces Verif.eatSpaces := refP_shows (c41_eat_separator _)
theorem refP_take (n : Nat) : RefP Sh (take n) (Nom.take n) := refP_shows (c41_take n)
theorem refP_takeUntil (t : Bytes) : RefP Sh (takeUntil t) (Nom.takeUntil t) := refP_shows (c41_take_until t)
theorem refP_takeUntilAndConsume (t : Bytes) : RefP Sh (takeUntilAndConsume t) (Nom.takeUntilAndConsume t) :=
  refP_shows (c41_take_until_and_consume t)
theorem refP_recognize {v : α → β → Prop} {P : BP α} {Q : Nom.Parser β} (h : RefP v P Q) :
    RefP Sh (recognize P) (Nom.recognize Q) := refP_shows fun s hs => c41_recognize v P Q s hs (h s hs)

theorem refP_bind {v : α → β → Prop} {w : γ → δ → Prop} {P : BP α} {Q : Nom.Parser β} {F : α → BP γ}
    {G : β → Nom.Parser δ} (h : RefP v P Q) (hf : ∀ a b, v a b → RefP w (F a) (G b)) :
    RefP w (P.bind F) (Q.bind G) := by
  intro s hs
  have := refines_iff.1 (h s hs)
  unfold BP.bind Nom.Parser.bind
  rcases this with ⟨h1, h2⟩ | ⟨h1, h2⟩ | ⟨rest, a, b, h1, h2, h3, h4, h5⟩
  · rw [h1, h2]; trivial
  · rw [h1, h2]; trivial
  · rw [h1, h2]
    exact refines_widen (hf a b h5 rest (within_inBuffer h3 hs)) h3 h4

theorem refP_bind' {v : α → β → Prop} {w : γ → δ → Prop} {P : BP α} {Q : Nom.Parser β} {F : α → BP γ}
    {G : β → Nom.Parser δ} (h : RefP v P Q) (hf : ∀ a b, v a b → RefP w (F a) (G b)) :
    RefP w (P >>= F) (Q >>= G) := refP_bind h hf

/-- A step of the action that cannot panic after all. -/
theorem refP_eval {v : α → β → Prop} {w : γ → δ → Prop} {x : Option α} {b : β} {F : α → BP γ} {q : Nom.Parser δ}
    (hx : ∃ a, x = some a ∧ v a b) (hf : ∀ a, v a b → RefP w (F a) q) : RefP w (eval x >>= F) q := by
  obtain ⟨a, rfl, ha⟩ := hx
  exact hf a ha

theorem refP_pure {v : α → β → Prop} {a : α} {b : β} (h : v a b) : RefP v (pure a) (pure b) :=
  fun _ hs => refines_done hs h

theorem refP_mono {v w : α → β → Prop} {P : BP α} {Q : Nom.Parser β} (h : RefP v P Q) (hv : ∀ a b, v a b → w a b) :
    RefP w P Q := fun s hs => refines_mono (h s hs) hv

theorem refP_mapP {v : α → β → Prop} {w : γ → δ → Prop} {P : BP α} {Q : Nom.Parser β} {f : α → Option γ} {g : β → δ}
    (h : RefP v P Q) (hf : ∀ a b, v a b → ∃ c, f a = some c ∧ w c (g b)) : RefP w (mapP P f) (Nom.mapP Q g) :=
  refP_bind h fun a b hab s hs => by
    obtain ⟨c, h1, h2⟩ := hf a b hab
    simp only [eval, h1, Option.map_some]
    exact refines_done hs h2

theorem refP_mapRes {v : α → β → Prop} {w : γ → δ → Prop} {P : BP α} {Q : Nom.Parser β} {f : α → Option (Option γ)}
    {g : β → Option δ} (h : RefP v P Q)
    (hf : ∀ a b, v a b → (f a = some none ∧ g b = none) ∨ ∃ c d, f a = some (some c) ∧ g b = some d ∧ w c d) :
    RefP w (mapRes P f) (Nom.mapRes Q g) :=
  refP_bind h fun a b hab s hs => by
    rcases hf a b hab with ⟨h1, h2⟩ | ⟨c, d, h1, h2, h3⟩
    · simp only [h1, h2, Option.bind_some]; trivial
    · simp only [h1, h2, Option.bind_some]; exact refines_done hs h3

theorem refP_verify {v : α → β → Prop} {P : BP α} {Q : Nom.Parser β} {f : α → Option Bool} {g : β → Bool}
    (h : RefP v P Q) (hf : ∀ a b, v a b → f a = some (g b)) : RefP v (verify P f) (Nom.verify Q g) :=
  refP_bind h fun a b hab s hs => by
    simp only [hf a b hab, Option.bind_some]
    cases g b
    · trivial
    · exact refines_done hs hab

theorem refP_verify_holds {v : α → β → Prop} {P : BP α} {Q : Nom.Parser β} {f : α → Option Bool} {g : β → Bool}
    (h : RefP v P Q) (hf : ∀ a b, v a b → f a = some (g b)) :
    RefP (fun a b => v a b ∧ g b = true) (verify P f) (Nom.verify Q g) :=
  refP_bind h fun a b hab s hs => by
    simp only [hf a b hab, Option.bind_some]
    cases hg : g b
    · trivial
    · exact refines_done hs ⟨hab, hg⟩

theorem refP_opt {v : α → β → Prop} {P : BP α} {Q : Nom.Parser β} (h : RefP v P Q) :
    RefP (fun a b => (a = none ∧ b = none) ∨ ∃ x y, a = some x ∧ b = some y ∧ v x y) (opt P) (Nom.opt Q) := by
  intro s hs
  unfold opt Nom.opt
  rcases refines_iff.1 (h s hs) with ⟨h1, h2⟩ | ⟨h1, h2⟩ | ⟨rest, a, b, h1, h2, h3, h4, h5⟩
  · rw [h1, h2]; exact refines_done hs (.inl ⟨rfl, rfl⟩)
  · rw [h1, h2]; trivial
  · rw [h1, h2]; exact ⟨h3, h4, rfl, .inr ⟨a, b, rfl, rfl, h5⟩⟩

theorem refP_complete {v : α → β → Prop} {P : BP α} {Q : Nom.Parser β} (h : RefP v P Q) :
    RefP v (complete P) (Nom.complete Q) := by
  intro s hs
  unfold complete Nom.complete
  rcases refines_iff.1 (h s hs) with ⟨h1, h2⟩ | ⟨h1, h2⟩ | ⟨rest, a, b, h1, h2, h3, h4, h5⟩
  · rw [h1, h2]; trivial
  · rw [h1, h2]; trivial
  · rw [h1, h2]; exact ⟨h3, h4, rfl, h5⟩

theorem refP_alt {v : α → β → Prop} {P P' : BP α} {Q Q' : Nom.Parser β} (h : RefP v P Q) (h' : RefP v P' Q') :
    RefP v (alt P P') (Nom.alt Q Q') := by
  intro s hs
  unfold alt Nom.alt
  rcases refines_iff.1 (h s hs) with ⟨h1, h2⟩ | ⟨h1, h2⟩ | ⟨rest, a, b, h1, h2, h3, h4, h5⟩
  · rw [h1, h2]; exact h' s hs
  · rw [h1, h2]; trivial
  · rw [h1, h2]; exact ⟨h3, h4, rfl, h5⟩

theorem refP_preceded {v : α → β → Prop} {w : γ → δ → Prop} {P : BP α} {Q : Nom.Parser β} {P' : BP γ}
    {Q' : Nom.Parser δ} (h : RefP v P Q) (h' : RefP w P' Q') : RefP w (preceded P P') (Nom.preceded Q Q') :=
  refP_bind h fun _ _ _ => h'

/-- Lists of values, element by element. -/
def All2 (v : α → β → Prop) : List α → List β → Prop
  | [], [] => True
  | a :: as, b :: bs => v a b ∧ All2 v as bs
  | _, _ => False

theorem visible_len {r s : ByteSlice} (hs : InBuffer s) (h : Within r s) (hst : r.stop = s.stop) :
    (visible r).length + (r.start - s.start) = (visible s).length ∧ s.start ≤ r.start := by
  rw [visible_length hs, visible_length (within_inBuffer h hs)]
  obtain ⟨h1, h2, h3, h4, h5⟩ := h
  have := hs.1
  omega

theorem beq_within {r s : ByteSlice} (hs : InBuffer s) (h : Within r s) (hst : r.stop = s.stop) :
    r.beq s = decide ((visible r).length = (visible s).length) := by
  have := visible_len hs h hst
  unfold ByteSlice.beq
  rw [hst, h.1]
  simp only [beq_self_eq_true, Bool.and_true]
  by_cases he : r.start = s.start
  · have e : (visible r).length = (visible s).length := by omega
    simp [he, e]
  · have e : (visible r).length ≠ (visible s).length := by omega
    simp [he, e]

theorem refP_many0 {v : α → β → Prop} {P : BP α} {Q : Nom.Parser β} (h : RefP v P Q) :
    RefP (All2 v) (many0 P : BP _) (Nom.many0 Q) := by
  intro s
  generalize hn : (visible s).length = n
  induction n using Nat.strongRecOn generalizing s with
  | _ n ih =>
    intro hs
    rw [many0, Nom.many0, len_visible hs]
    simp only [Option.bind_eq_bind, Option.bind_some]
    by_cases he : visible s = []
    · simp only [he, List.length_nil, if_true]
      exact ⟨within_refl hs, rfl, he, trivial⟩
    · have hl : (visible s).length ≠ 0 := by simpa using he
      simp only [he, hl, if_false]
      rcases refines_iff.1 (h s hs) with ⟨h1, h2⟩ | ⟨h1, h2⟩ | ⟨r, a, b, h1, h2, h3, h4, h5⟩
      · rw [h1, h2]; exact ⟨within_refl hs, rfl, rfl, trivial⟩
      · rw [h1, h2]; trivial
      · rw [h1, h2]
        simp only [Option.bind_some, beq_within hs h3 h4]
        have := visible_len hs h3 h4
        by_cases hlt : (visible r).length < (visible s).length
        · have hne : ¬ (visible r).length = (visible s).length := by omega
          simp only [hne, decide_false, Bool.false_eq_true, if_false, hlt, dite_true]
          rcases refines_iff.1 (ih _ (hn ▸ hlt) r rfl (within_inBuffer h3 hs)) with
            ⟨k1, k2⟩ | ⟨k1, k2⟩ | ⟨r', as, bs, k1, k2, k3, k4, k5⟩
          · rw [k1, k2]; trivial
          · rw [k1, k2]; trivial
          · rw [k1, k2]
            exact ⟨within_trans k3 h3, k4.trans h4, rfl, h5, k5⟩
        · have hne : (visible r).length = (visible s).length := by omega
          simp only [hne, decide_true, if_true, Nat.lt_irrefl, dite_false]
          trivial

theorem refP_sepLoop {v : α → β → Prop} {w : γ → δ → Prop} {S : BP γ} {T : Nom.Parser δ} {P : BP α} {Q : Nom.Parser β}
    (hsep : RefP w S T) (h : RefP v P Q) : RefP (All2 v) (sepLoop S P : BP _) (Nom.sepLoop T Q) := by
  intro s
  generalize hn : (visible s).length = n
  induction n using Nat.strongRecOn generalizing s with
  | _ n ih =>
    intro hs
    rw [sepLoop, Nom.sepLoop]
    simp only [Option.bind_eq_bind]
    rcases refines_iff.1 (hsep s hs) with ⟨h1, h2⟩ | ⟨h1, h2⟩ | ⟨s2, a, b, h1, h2, h3, h4, h5⟩
    · rw [h1, h2]; exact ⟨within_refl hs, rfl, rfl, trivial⟩
    · rw [h1, h2]; trivial
    · have hs2 := within_inBuffer h3 hs
      rw [h1, h2]
      simp only [Option.bind_some, len_visible hs, len_visible hs2]
      have l1 := visible_len hs h3 h4
      by_cases hlt : (visible s2).length < (visible s).length
      · have hne : ¬ (visible s2).length = (visible s).length := by omega
        simp only [hne, if_false, hlt, dite_true]
        rcases refines_iff.1 (h s2 hs2) with ⟨j1, j2⟩ | ⟨j1, j2⟩ | ⟨s3, a', b', j1, j2, j3, j4, j5⟩
        · rw [j1, j2]; exact ⟨within_refl hs, rfl, rfl, trivial⟩
        · rw [j1, j2]; trivial
        · have hs3 := within_inBuffer j3 hs2
          have l2 := visible_len hs2 j3 j4
          rw [j1, j2]
          simp only [Option.bind_some, len_visible hs3]
          by_cases hlt' : (visible s3).length < (visible s2).length
          · have hne' : ¬ (visible s3).length = (visible s2).length := by omega
            simp only [hne', if_false, hlt', dite_true]
            rcases refines_iff.1 (ih _ (by omega) s3 rfl hs3) with
              ⟨k1, k2⟩ | ⟨k1, k2⟩ | ⟨r', as, bs, k1, k2, k3, k4, k5⟩
            · rw [k1, k2]; trivial
            · rw [k1, k2]; trivial
            · rw [k1, k2]
              exact ⟨within_trans (within_trans k3 j3) h3, k4.trans (j4.trans h4), rfl, j5, k5⟩
          · have hne' : (visible s3).length = (visible s2).length := by omega
            simp only [hne', if_true, Nat.lt_irrefl, dite_false]
            exact ⟨within_refl hs, rfl, rfl, trivial⟩
      · have hne : (visible s2).length = (visible s).length := by omega
        simp only [hne, if_true, Nat.lt_irrefl, dite_false]
        exact ⟨within_refl hs, rfl, rfl, trivial⟩

theorem refines_sepRest {v : α → β → Prop} {w : γ → δ → Prop} {S : BP γ} {T : Nom.Parser δ} {P : BP α} {Q : Nom.Parser β}
    (hsep : RefP w S T) (h : RefP v P Q) {s r : ByteSlice} (hs : InBuffer s) (hr : Within r s) (hst : r.stop = s.stop)
    {a : α} {b : β} (hab : v a b) :
    Refines (All2 v) s (sepRest S P s r a)
      (if (visible r).length < (visible s).length then
        match Nom.sepLoop T Q (visible r) with
        | .done r' as => .done r' (b :: as)
        | .error => .error
        | .incomplete => .incomplete
      else .error) := by
  have hr' := within_inBuffer hr hs
  have l := visible_len hs hr hst
  unfold sepRest
  simp only [len_visible hs, len_visible hr', Option.bind_some]
  by_cases hlt : (visible r).length < (visible s).length
  · have hne : ¬ (visible r).length = (visible s).length := by omega
    simp only [hne, if_false, hlt, if_true]
    rcases refines_iff.1 (refP_sepLoop hsep h r hr') with ⟨k1, k2⟩ | ⟨k1, k2⟩ | ⟨r', as, bs, k1, k2, k3, k4, k5⟩
    · rw [k1, k2]; trivial
    · rw [k1, k2]; trivial
    · rw [k1, k2]; exact ⟨within_trans k3 hr, k4.trans hst, rfl, hab, k5⟩
  · have hne : (visible r).length = (visible s).length := by omega
    simp only [hne, if_true, Nat.lt_irrefl, if_false]
    trivial

theorem refP_separatedNonemptyListComplete {v : α → β → Prop} {w : γ → δ → Prop} {S : BP γ} {T : Nom.Parser δ}
    {P : BP α} {Q : Nom.Parser β} (hsep : RefP w S T) (h : RefP v P Q) :
    RefP (All2 v) (separatedNonemptyListComplete S P) (Nom.separatedNonemptyListComplete T Q) := by
  have hsep := refP_complete hsep
  have h := refP_complete h
  intro s hs
  unfold separatedNonemptyListComplete Nom.separatedNonemptyListComplete separatedNonemptyList Nom.separatedNonemptyList
  rcases refines_iff.1 (h s hs) with ⟨h1, h2⟩ | ⟨h1, h2⟩ | ⟨r, a, b, h1, h2, h3, h4, h5⟩
  · rw [h1, h2]; trivial
  · rw [h1, h2]; trivial
  · rw [h1, h2]; exact refines_sepRest hsep h hs h3 h4 h5

theorem refP_separatedList {v : α → β → Prop} {w : γ → δ → Prop} {S : BP γ} {T : Nom.Parser δ} {P : BP α}
    {Q : Nom.Parser β} (hsep : RefP w S T) (h : RefP v P Q) :
    RefP (All2 v) (separatedList S P) (Nom.separatedList T Q) := by
  intro s hs
  unfold separatedList Nom.separatedList
  rcases refines_iff.1 (h s hs) with ⟨h1, h2⟩ | ⟨h1, h2⟩ | ⟨r, a, b, h1, h2, h3, h4, h5⟩
  · rw [h1, h2]; exact refines_done hs trivial
  · rw [h1, h2]; trivial
  · rw [h1, h2]; exact refines_sepRest hsep h hs h3 h4 h5

/-! ### The parsers -/

theorem promote_sh {a : ByteSlice} {b : Bytes} (h : Sh a b) : promote a = some b := by
  rw [promote, demote_visible h.1, h.2]

variable {L : IpLib}

/-- What `from_str` of the address types is applied to is a `&str`. -/
def Utf8Only (L : IpLib) : Prop := ∀ b, utf8 b = false → L.parse4 b = none ∧ L.parse6 b = none

theorem refP_label : RefP (fun _ _ => True) labelP Verif.labelP :=
  refP_mono (refP_preceded (refP_oneOf _) (refP_opt (refP_isA _))) fun _ _ _ => trivial

theorem refP_literal {P : BP ByteSlice} {Q : Nom.Parser Bytes} (h : RefP Sh P Q) {A : Type} {parse : Bytes → Option A}
    {f : A → Domain L} (hp : ∀ b, utf8 b = false → parse b = none) :
    RefP (· = ·) (literalP P fun x => (parse x).map f) (Nom.mapP (Nom.mapRes Q parse) f) := by
  intro s hs
  unfold literalP mapRes Nom.mapP Nom.mapRes BP.bind Nom.Parser.bind
  rcases refines_iff.1 (h s hs) with ⟨h1, h2⟩ | ⟨h1, h2⟩ | ⟨r, a, b, h1, h2, h3, h4, h5⟩
  · rw [h1, h2]; trivial
  · rw [h1, h2]; trivial
  · rw [h1, h2]
    simp only [Option.bind_some, intoUtf8, demote_visible h5.1, h5.2, Option.map_some]
    cases hu : utf8 b with
    | false => simp [hp b hu, Nom.Parser.fail]; trivial
    | true =>
      simp only [if_true, Option.bind_some]
      cases parse b with
      | none => simp [Nom.Parser.fail]; trivial
      | some x => simp only [Option.map_some, Option.bind_some, Nom.Parser.pure]; exact ⟨h3, h4, rfl, rfl⟩

theorem refP_hostname (hL : Utf8Only L) : RefP (· = ·) (hostnameP : BP (Domain L)) Verif.hostnameP := by
  refine refP_alt (refP_mapP (refP_recognize (refP_separatedNonemptyListComplete (refP_tag _) refP_label)) ?_)
    (refP_alt (refP_literal (refP_preceded (refP_tag _) (refP_takeUntilAndConsume _)) fun b hb => (hL b hb).2)
      (refP_literal (refP_preceded (refP_tag _) (refP_takeUntilAndConsume _)) fun b hb => (hL b hb).1))
  intro a b hab
  exact ⟨.host b, by rw [promote_sh hab]; rfl, rfl⟩

theorem refP_dotString : RefP Sh dotStringP Verif.dotStringP :=
  refP_recognize (refP_separatedNonemptyListComplete (refP_tag _) (refP_isA _))

/-- `take!(1)` gives one byte. -/
theorem refP_take1 : RefP (fun a b => Sh a b ∧ b.length = 1) (take 1) (Nom.take 1) := by
  intro s hs
  have := refP_take 1 s hs
  rw [refines_iff] at this ⊢
  rcases this with h | h | ⟨r, a, b, h1, h2, h3, h4, h5⟩
  · exact .inl h
  · exact .inr (.inl h)
  · refine .inr (.inr ⟨r, a, b, h1, h2, h3, h4, h5, ?_⟩)
    unfold Nom.take at h2
    split at h2
    · cases h2
    · simp only [Nom.IRes.done.injEq] at h2
      rw [← h2.2]
      simp
      omega

theorem index0_one {a : ByteSlice} {b : Bytes} (h : Sh a b ∧ b.length = 1) (f : UInt8 → Bool) :
    (index0 a).map f = some (b.all f) := by
  obtain ⟨h1, h2⟩ := h
  match b, h2 with
  | [c], _ => simp [index0, demote_visible h1.1, h1.2]

theorem refP_quotedItem : RefP (fun _ _ => True) quotedItemP Verif.quotedItemP := by
  refine refP_mono (v := fun a b => Sh a b ∧ b.length = 1) (refP_alt (refP_preceded (refP_tag _) (refP_verify refP_take1 ?_))
    (refP_verify refP_take1 ?_)) fun _ _ _ => trivial
  · intro a b hab; exact index0_one hab _
  · intro a b hab; exact index0_one hab _

theorem refP_quotedString : RefP Sh quotedStringP Verif.quotedStringP :=
  refP_recognize (v := fun _ _ => True) <|
    refP_bind' (refP_tag _) fun _ _ _ => refP_bind' (refP_many0 refP_quotedItem) fun _ _ _ =>
      refP_bind' (refP_tag _) fun _ _ _ => refP_pure trivial

theorem refP_localpart : RefP Sh localpartP Verif.localpartP := refP_alt refP_quotedString refP_dotString

theorem refP_email (hL : Utf8Only L) : RefP (· = ·) (emailP : BP (Email L)) Verif.emailP :=
  refP_bind' refP_localpart fun _ _ h1 =>
    refP_bind' (refP_opt (refP_complete (refP_preceded (refP_tag _) (refP_hostname hL)))) fun _ _ h2 =>
      refP_eval (v := (· = ·)) ⟨_, promote_sh h1, rfl⟩ fun _ h3 => refP_pure (by
        subst h3
        rcases h2 with ⟨rfl, rfl⟩ | ⟨x, y, rfl, rfl, rfl⟩ <;> rfl)

theorem refP_hop (hL : Utf8Only L) : RefP (fun _ _ => True) (hopP L) (Verif.hopP L) :=
  refP_bind' (refP_tag _) fun _ _ _ => refP_bind' (refP_hostname hL) fun _ _ _ => refP_pure trivial

theorem refP_route (hL : Utf8Only L) : RefP (fun _ _ => True) (routeP L) (Verif.routeP L) :=
  refP_bind' (refP_separatedList (refP_tag _) (refP_hop hL)) fun _ _ _ =>
    refP_bind' (refP_tag _) fun _ _ _ => refP_pure trivial

theorem refP_addressInPath (hL : Utf8Only L) : RefP (· = ·) (addressInPathP : BP (Email L)) Verif.addressInPathP :=
  refP_preceded (refP_opt (refP_route hL)) (refP_email hL)

theorem refP_maybeBracketed (hL : Utf8Only L) : RefP (· = ·) (maybeBracketedP : BP (Email L)) Verif.maybeBracketedP :=
  refP_alt (refP_bind' (refP_tag _) fun _ _ _ => refP_bind' (refP_addressInPath hL) fun _ _ h =>
    refP_bind' (refP_tag _) fun _ _ _ => refP_pure h) (refP_addressInPath hL)

theorem refP_param : RefP (· = ·) paramP Verif.paramP :=
  refP_bind' (refP_oneOf _) fun _ _ _ => refP_bind' refP_eatSpaces fun _ _ _ =>
    refP_bind' (refP_recognize (refP_preceded (refP_oneOf _) (refP_opt (refP_isA _)))) fun _ _ h1 =>
      refP_bind' (refP_opt (refP_complete (refP_preceded (refP_tag _) (refP_isA _)))) fun _ b h2 =>
        refP_eval (v := (· = ·)) ⟨_, promote_sh h1, rfl⟩ fun _ h3 =>
          refP_eval (v := (· = ·)) (b := b) (by
            rcases h2 with ⟨rfl, rfl⟩ | ⟨x, y, rfl, rfl, hxy⟩
            · exact ⟨none, rfl, rfl⟩
            · exact ⟨some y, by simp [promoteOpt, promote_sh hxy], rfl⟩) fun _ h4 => refP_pure (by rw [h3, h4])

theorem all2_eq {as bs : List α} (h : All2 (· = ·) as bs) : as = bs := by
  induction as generalizing bs with
  | nil => cases bs with
    | nil => rfl
    | cons => exact h.elim
  | cons a as ih => cases bs with
    | nil => exact h.elim
    | cons b bs => rw [h.1, ih h.2]

theorem refP_parameters : RefP (· = ·) parametersP Verif.parametersP :=
  refP_bind' (refP_many0 refP_param) fun _ _ h => refP_pure (by rw [all2_eq h])

theorem refP_crlf : RefP Sh crlfP Nom.crlfP := refP_tag _

theorem refP_dataArgs : RefP (· = ·) (dataArgs : BP (Command L)) Verif.dataArgs :=
  refP_bind' (refP_tagNoCase _) fun _ _ _ => refP_bind' refP_eatSpaces fun _ _ _ =>
    refP_bind' refP_crlf fun _ _ _ => refP_pure rfl
theorem refP_quitArgs : RefP (· = ·) (quitArgs : BP (Command L)) Verif.quitArgs :=
  refP_bind' (refP_tagNoCase _) fun _ _ _ => refP_bind' refP_eatSpaces fun _ _ _ =>
    refP_bind' refP_crlf fun _ _ _ => refP_pure rfl
theorem refP_rsetArgs : RefP (· = ·) (rsetArgs : BP (Command L)) Verif.rsetArgs :=
  refP_bind' (refP_tagNoCase _) fun _ _ _ => refP_bind' refP_eatSpaces fun _ _ _ =>
    refP_bind' refP_crlf fun _ _ _ => refP_pure rfl
theorem refP_ehloArgs (hL : Utf8Only L) : RefP (· = ·) (ehloArgs : BP (Command L)) Verif.ehloArgs :=
  refP_bind' refP_eatSpaces fun _ _ _ => refP_bind' (refP_tagNoCase _) fun _ _ _ => refP_bind' refP_eatSpaces fun _ _ _ =>
    refP_bind' (refP_hostname hL) fun _ _ h => refP_bind' refP_eatSpaces fun _ _ _ => refP_bind' (refP_tag _) fun _ _ _ =>
      refP_pure (by rw [h])
theorem refP_heloArgs (hL : Utf8Only L) : RefP (· = ·) (heloArgs : BP (Command L)) Verif.heloArgs :=
  refP_bind' refP_eatSpaces fun _ _ _ => refP_bind' (refP_tagNoCase _) fun _ _ _ => refP_bind' refP_eatSpaces fun _ _ _ =>
    refP_bind' (refP_hostname hL) fun _ _ h => refP_bind' refP_eatSpaces fun _ _ _ => refP_bind' (refP_tag _) fun _ _ _ =>
      refP_pure (by rw [h])
theorem refP_expnArgs : RefP (· = ·) (expnArgs : BP (Command L)) Verif.expnArgs :=
  refP_bind' (refP_tagNoCase _) fun _ _ _ => refP_bind' (refP_oneOf _) fun _ _ _ =>
    refP_bind' (refP_takeUntil _) fun _ _ h => refP_bind' (refP_tag _) fun _ _ _ =>
      refP_eval (v := (· = ·)) ⟨_, promote_sh h, rfl⟩ fun _ h => refP_pure (by rw [h])
theorem refP_vrfyArgs : RefP (· = ·) (vrfyArgs : BP (Command L)) Verif.vrfyArgs :=
  refP_bind' (refP_tagNoCase _) fun _ _ _ => refP_bind' (refP_oneOf _) fun _ _ _ =>
    refP_bind' (refP_takeUntil _) fun _ _ h => refP_bind' (refP_tag _) fun _ _ _ =>
      refP_eval (v := (· = ·)) ⟨_, promote_sh h, rfl⟩ fun _ h => refP_pure (by rw [h])
theorem refP_helpArgs : RefP (· = ·) (helpArgs : BP (Command L)) Verif.helpArgs :=
  refP_bind' (refP_tagNoCase _) fun _ _ _ => refP_bind' (refP_opt (refP_oneOf _)) fun _ _ _ =>
    refP_bind' (refP_takeUntil _) fun _ _ h => refP_bind' (refP_tag _) fun _ _ _ =>
      refP_eval (v := (· = ·)) ⟨_, promote_sh h, rfl⟩ fun _ h => refP_pure (by rw [h])
theorem refP_noopArgs : RefP (· = ·) (noopArgs : BP (Command L)) Verif.noopArgs :=
  refP_bind' (refP_tagNoCase _) fun _ _ _ => refP_bind' (refP_opt (refP_oneOf _)) fun _ _ _ =>
    refP_bind' (refP_takeUntil _) fun _ _ h => refP_bind' (refP_tag _) fun _ _ _ =>
      refP_eval (v := (· = ·)) ⟨_, promote_sh h, rfl⟩ fun _ h => refP_pure (by rw [h])
theorem refP_mailArgs (hL : Utf8Only L) : RefP (· = ·) (mailArgs : BP (Command L)) Verif.mailArgs :=
  refP_bind' (refP_tagNoCase _) fun _ _ _ => refP_bind' refP_eatSpaces fun _ _ _ =>
    refP_bind' (v := (· = ·)) (refP_alt (refP_mapP (refP_tag _) fun _ _ _ => ⟨_, rfl, rfl⟩)
        (refP_mapP (refP_maybeBracketed hL) fun _ _ h => ⟨_, rfl, by rw [h]⟩)) fun _ _ h1 =>
      refP_bind' refP_parameters fun _ _ h2 => refP_bind' refP_eatSpaces fun _ _ _ =>
        refP_bind' refP_crlf fun _ _ _ => refP_pure (by rw [h1, h2])
theorem refP_rcptArgs (hL : Utf8Only L) : RefP (· = ·) (rcptArgs : BP (Command L)) Verif.rcptArgs :=
  refP_bind' (refP_tagNoCase _) fun _ _ _ => refP_bind' refP_eatSpaces fun _ _ _ =>
    refP_bind' (refP_maybeBracketed hL) fun _ _ h1 =>
      refP_bind' refP_parameters fun _ _ h2 => refP_bind' refP_eatSpaces fun _ _ _ =>
        refP_bind' refP_crlf fun _ _ _ => refP_pure (by rw [h1, h2])

theorem refP_command (hL : Utf8Only L) : RefP (· = ·) (commandP : BP (Command L)) Verif.commandP :=
  refP_alt refP_dataArgs <| refP_alt (refP_ehloArgs hL) <| refP_alt refP_expnArgs <| refP_alt (refP_heloArgs hL) <|
    refP_alt refP_helpArgs <| refP_alt (refP_mailArgs hL) <| refP_alt refP_noopArgs <| refP_alt refP_quitArgs <|
    refP_alt (refP_rcptArgs hL) <| refP_alt refP_rsetArgs refP_vrfyArgs

/-! ### Replies -/

theorem utf8_ascii {b : Bytes} (h : ∀ c ∈ b, c < 128) : utf8 b = true := by
  induction b with
  | nil => rfl
  | cons a r ih =>
    unfold utf8
    rw [if_pos (h a (by simp))]
    exact ih fun c hc => h c (by simp [hc])

theorem u16_ascii {b : Bytes} {v : UInt16} (h : ReplyLine.u16FromStr b = some v) : ∀ c ∈ b, c < 128 := by
  unfold ReplyLine.u16FromStr at h
  simp only at h
  split at h
  · cases h
  · rename_i hd
    simp only [not_or, Decidable.not_not] at hd
    have hall := hd.2
    rw [List.all_eq_true] at hall
    intro c hc
    have key : c = 43 ∨ c ∈ ReplyLine.stripPlus b := by
      unfold ReplyLine.stripPlus
      split
      · rename_i hh
        cases b with
        | nil => cases hc
        | cons x r =>
          simp at hh
          simp at hc
          rcases hc with rfl | hc
          · exact .inl hh
          · exact .inr hc
      · exact .inr hc
    rcases key with rfl | hc
    · decide
    · have := hall c hc
      simp at this
      exact Nat.lt_of_le_of_lt this.2 (by decide)

theorem refP_reply : RefP (· = ·) replyP ReplyLine.parser := by
  have h0 : RefP (· = ·) (mapRes (mapRes (take 3) intoUtf8) fun x => some (ReplyLine.u16FromStr x))
      (Nom.mapRes (Nom.take 3) ReplyLine.u16FromStr) := by
    intro s hs
    unfold mapRes Nom.mapRes BP.bind Nom.Parser.bind
    rcases refines_iff.1 (refP_take 3 s hs) with ⟨h1, h2⟩ | ⟨h1, h2⟩ | ⟨r, a, b, h1, h2, h3, h4, h5⟩
    · rw [h1, h2]; trivial
    · rw [h1, h2]; trivial
    · rw [h1, h2]
      simp only [Option.bind_some, intoUtf8, demote_visible h5.1, h5.2, Option.map_some]
      cases hu : utf8 b with
      | false =>
        cases hv : ReplyLine.u16FromStr b with
        | none => simp [Nom.Parser.fail]; trivial
        | some v => rw [utf8_ascii (u16_ascii hv)] at hu; cases hu
      | true =>
        simp only [if_true, Option.bind_some]
        cases ReplyLine.u16FromStr b with
        | none => simp only [Option.bind_some, Nom.Parser.fail]; trivial
        | some v => simp only [Option.bind_some, Nom.Parser.pure]; exact ⟨h3, h4, rfl, rfl⟩
  refine refP_bind' (v := (· = ·)) (refP_mapP (refP_verify_holds h0 fun a b hab => by rw [hab]) ?_) fun _ _ hc =>
    refP_bind' (v := (· = ·)) (refP_mapP (refP_alt (refP_tag _) (refP_tag _)) ?_) fun _ _ hl =>
      refP_bind' (refP_takeUntilAndConsume _) fun _ _ hs =>
        refP_eval (v := (· = ·)) ⟨_, promote_sh hs, rfl⟩ fun _ hs => refP_pure (by rw [hc, hl, hs])
  · rintro a b ⟨rfl, hb⟩
    exact ⟨_, by rw [ReplyCode.custom, if_pos (by simpa using hb)], rfl⟩
  · intro a b hab
    simp only [Option.bind_eq_bind, len_visible hab.1, hab.2, Option.bind_some, index0, demote_visible hab.1]
    match b with
    | [] => exact ⟨_, rfl, rfl⟩
    | [c] =>
      by_cases hc : c = 32
      · subst hc; exact ⟨_, rfl, rfl⟩
      · simp [hc]
    | c :: d :: r => simp

end Verif.SliceParse
