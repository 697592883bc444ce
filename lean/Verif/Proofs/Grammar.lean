import Verif.Spec.Grammar
import Verif.Proofs.Nom
/-
The parsers of Model/Command.lean accept the languages of Spec/Grammar.lean.
-/
namespace Verif
open Spec Nom

variable {α β : Type}

/-! ### Byte classes -/

instance : DecidablePred Letter := fun c => by unfold Letter; infer_instance
instance : DecidablePred Alnum := fun c => by unfold Alnum; infer_instance
instance : DecidablePred AlnumDash := fun c => by unfold AlnumDash; infer_instance
instance : DecidablePred Atext := fun c => by unfold Atext; infer_instance
instance : DecidablePred ValueByte := fun c => by unfold ValueByte; infer_instance
instance : DecidablePred Printable := fun c => by unfold Printable; infer_instance
instance : DecidablePred Blank := fun c => by unfold Blank; infer_instance

theorem mem_spaces : ∀ c : UInt8, c ∈ spacesC ↔ Blank c := by decide +kernel
theorem mem_alnum : ∀ c : UInt8, c ∈ alnumC ↔ Alnum c := by decide +kernel
theorem mem_alnumdash : ∀ c : UInt8, c ∈ alnumdashC ↔ AlnumDash c := by decide +kernel
theorem mem_atext : ∀ c : UInt8, c ∈ atextC ↔ Atext c := by decide +kernel
theorem mem_graph : ∀ c : UInt8, c ∈ graphExceptEquC ↔ ValueByte c := by decide +kernel

/-! ### Generic lemmas on repetitions -/

theorem sepLoop_sound {sep : Parser β} {p : Parser α} {c : UInt8} {E : Bytes → Prop}
    (hsep : ∀ i r b, sep i = .done r b → i = c :: r)
    (hp : ∀ i r a, p i = .done r a → r.length < i.length → ∃ x, E x ∧ i = x ++ r)
    {i r : Bytes} {as : List α} (h : sepLoop sep p i = .done r as) :
    ∃ xs : List Bytes, (∀ x ∈ xs, E x) ∧ i = xs.flatMap (c :: ·) ++ r := by
  fun_induction sepLoop sep p i generalizing as with
  | case1 i h1 => simp at h; exact ⟨[], by simp, by simp [h]⟩
  | case2 => simp at h
  | case3 i i2 b h1 hlt h2 => simp at h; exact ⟨[], by simp, by simp [h]⟩
  | case4 => simp at h
  | case5 i i2 b h1 hlt i3 a h2 hlt3 r' as' h3 ih =>
    simp at h; obtain ⟨rfl, rfl⟩ := h
    obtain ⟨xs, hx, rfl⟩ := ih h3
    obtain ⟨x, hx1, rfl⟩ := hp _ _ _ h2 hlt3
    refine ⟨x :: xs, by simpa using ⟨hx1, hx⟩, ?_⟩
    rw [hsep _ _ _ h1]; simp
  | case6 => simp at h
  | case7 => simp at h
  | case8 => simp at h; exact ⟨[], by simp, by simp [h]⟩
  | case9 => simp at h; exact ⟨[], by simp, by simp [h]⟩

theorem sepLoop_complete {sep : Parser β} {p : Parser α} {c : UInt8} {E St : Bytes → Prop}
    (hsep : ∀ i, ∃ b, sep (c :: i) = .done i b)
    (hne : ∀ x, E x → x ≠ [])
    (hp : ∀ x r, E x → St r → ∃ a, p (x ++ r) = .done r a)
    (hst : ∀ i, St (c :: i)) {r : Bytes} (hr : St r) (hend : sep r = .error)
    (xs : List Bytes) (hx : ∀ x ∈ xs, E x) :
    ∃ as, sepLoop sep p (xs.flatMap (c :: ·) ++ r) = .done r as := by
  induction xs with
  | nil => rw [sepLoop]; simp [hend]
  | cons x xs ih =>
    obtain ⟨as, ih⟩ := ih (fun x hx' => hx x (by simp [hx']))
    have hE := hx x (by simp)
    have hxne := hne x hE
    have hSt : St (xs.flatMap (c :: ·) ++ r) := by
      cases xs with
      | nil => simpa using hr
      | cons y ys => simpa using hst _
    obtain ⟨a, ha⟩ := hp x _ hE hSt
    obtain ⟨b, hb⟩ := hsep (x ++ (xs.flatMap (c :: ·) ++ r))
    have hl : 0 < x.length := List.length_pos_iff.2 hxne
    refine ⟨a :: as, ?_⟩
    rw [sepLoop]
    simp only [List.flatMap_cons, List.cons_append, List.append_assoc]
    rw [hb]
    simp only [ha, ih]
    rw [dif_pos (by simp), dif_pos (by simp only [List.length_append]; omega)]

theorem joinWith_cons (c : UInt8) (x : Bytes) (xs : List Bytes) :
    joinWith c (x :: xs) = x ++ xs.flatMap (c :: ·) := by
  induction xs generalizing x with
  | nil => simp [joinWith]
  | cons y ys ih => simp [joinWith, ih]

theorem sepNonempty_sound {sep : Parser β} {p : Parser α} {c : UInt8} {E : Bytes → Prop}
    (hsep : ∀ i r b, sep i = .done r b → i = c :: r)
    (hp : ∀ i r a, p i = .done r a → r.length < i.length → ∃ x, E x ∧ i = x ++ r)
    {i r : Bytes} {as : List α} (h : separatedNonemptyList sep p i = .done r as) :
    ∃ xs : List Bytes, xs ≠ [] ∧ (∀ x ∈ xs, E x) ∧ i = joinWith c xs ++ r := by
  unfold separatedNonemptyList at h
  cases h1 : p i with
  | error => simp [h1] at h
  | incomplete => simp [h1] at h
  | done r1 a =>
    simp only [h1] at h
    split at h
    · rename_i hlt
      obtain ⟨x, hx, rfl⟩ := hp _ _ _ h1 hlt
      cases h2 : sepLoop sep p r1 with
      | error => simp [h2] at h
      | incomplete => simp [h2] at h
      | done r2 as' =>
        simp [h2] at h; obtain ⟨rfl, rfl⟩ := h
        obtain ⟨xs, hxs, rfl⟩ := sepLoop_sound hsep hp h2
        exact ⟨x :: xs, by simp, by simpa using ⟨hx, hxs⟩, by simp [joinWith_cons]⟩
    · simp at h

theorem sepNonempty_complete {sep : Parser β} {p : Parser α} {c : UInt8} {E St : Bytes → Prop}
    (hsep : ∀ i, ∃ b, sep (c :: i) = .done i b)
    (hne : ∀ x, E x → x ≠ [])
    (hp : ∀ x r, E x → St r → ∃ a, p (x ++ r) = .done r a)
    (hst : ∀ i, St (c :: i)) {r : Bytes} (hr : St r) (hend : sep r = .error)
    (xs : List Bytes) (hx : ∀ x ∈ xs, E x) (hxs : xs ≠ []) :
    ∃ as, separatedNonemptyList sep p (joinWith c xs ++ r) = .done r as := by
  obtain ⟨x, xs, rfl⟩ := List.exists_cons_of_ne_nil hxs
  obtain ⟨as, h⟩ := sepLoop_complete hsep hne hp hst hr hend xs (fun x hx' => hx x (by simp [hx']))
  have hE := hx x (by simp)
  have hSt : St (xs.flatMap (c :: ·) ++ r) := by
    cases xs with
    | nil => simpa using hr
    | cons y ys => simpa using hst _
  obtain ⟨a, ha⟩ := hp x _ hE hSt
  have hl : 0 < x.length := List.length_pos_iff.2 (hne x hE)
  refine ⟨a :: as, ?_⟩
  unfold separatedNonemptyList
  rw [joinWith_cons, List.append_assoc, ha]
  simp only [h]
  rw [if_pos (by simp only [List.length_append]; omega)]

theorem sepList_complete {sep : Parser β} {p : Parser α} {c : UInt8} {E St : Bytes → Prop}
    (hsep : ∀ i, ∃ b, sep (c :: i) = .done i b)
    (hne : ∀ x, E x → x ≠ [])
    (hp : ∀ x r, E x → St r → ∃ a, p (x ++ r) = .done r a)
    (hst : ∀ i, St (c :: i)) {r : Bytes} (hr : St r) (hend : sep r = .error) (hpe : p r = .error)
    (xs : List Bytes) (hx : ∀ x ∈ xs, E x) :
    ∃ as, separatedList sep p (joinWith c xs ++ r) = .done r as := by
  cases xs with
  | nil => exact ⟨[], by simp [separatedList, joinWith, hpe]⟩
  | cons x xs =>
    obtain ⟨as, h⟩ := sepNonempty_complete hsep hne hp hst hr hend (x :: xs) hx (by simp)
    refine ⟨as, ?_⟩
    unfold separatedNonemptyList at h
    unfold separatedList
    cases h1 : p (joinWith c (x :: xs) ++ r) with
    | error => simp [h1] at h
    | incomplete => simp [h1] at h
    | done r1 a => simpa [h1] using h

theorem sepList_sound {sep : Parser β} {p : Parser α} {c : UInt8} {E : Bytes → Prop}
    (hsep : ∀ i r b, sep i = .done r b → i = c :: r)
    (hp : ∀ i r a, p i = .done r a → r.length < i.length → ∃ x, E x ∧ i = x ++ r)
    {i r : Bytes} {as : List α} (h : separatedList sep p i = .done r as) :
    ∃ xs : List Bytes, (∀ x ∈ xs, E x) ∧ i = joinWith c xs ++ r := by
  cases h1 : p i with
  | error => 
    simp [separatedList, h1] at h
    exact ⟨[], by simp, by simp [joinWith, h.1]⟩
  | incomplete => simp [separatedList, h1] at h
  | done r1 a =>
    have : separatedNonemptyList sep p i = .done r as := by
      simpa [separatedNonemptyList, separatedList, h1] using h
    obtain ⟨xs, _, h2, h3⟩ := sepNonempty_sound hsep hp this
    exact ⟨xs, h2, h3⟩

theorem many0_sound {p : Parser α} {E : Bytes → α → Prop}
    (hp : ∀ i r a, p i = .done r a → r ≠ [] → ∃ x, E x a ∧ i = x ++ r)
    {i r : Bytes} {as : List α} (hr : r ≠ []) (h : many0 p i = .done r as) :
    ∃ xs : List (Bytes × α), (∀ e ∈ xs, E e.1 e.2) ∧ as = xs.map (·.2) ∧
      i = (xs.map (·.1)).flatten ++ r := by
  fun_induction many0 p i generalizing as with
  | case1 => simp at h; exact absurd h.1.symm (by simpa [eq_comm] using hr)
  | case2 i hi h1 => simp at h; exact ⟨[], by simp, by simp [h.2], by simp [h.1]⟩
  | case3 => simp at h
  | case4 i hi r1 a h1 hlt r2 as2 h2 ih =>
    simp at h; obtain ⟨rfl, rfl⟩ := h
    obtain ⟨xs, hx, rfl, rfl⟩ := ih h2
    obtain ⟨x, hx1, rfl⟩ := hp _ _ _ h1 (by simp [hr])
    exact ⟨(x, a) :: xs, by simpa using ⟨hx1, by simpa using hx⟩, by simp, by simp⟩
  | case5 => simp at h
  | case6 => simp at h
  | case7 => simp at h

theorem many0_complete {p : Parser α} {E : Bytes → α → Prop} {St : Bytes → Prop}
    (hne : ∀ x a, E x a → x ≠ [])
    (hp : ∀ x a r, E x a → St r → p (x ++ r) = .done r a)
    (hst : ∀ x a r, E x a → St (x ++ r)) {r : Bytes} (hr : St r) (hend : r ≠ [] → p r = .error)
    (xs : List (Bytes × α)) (hx : ∀ e ∈ xs, E e.1 e.2) :
    many0 p ((xs.map (·.1)).flatten ++ r) = .done r (xs.map (·.2)) := by
  induction xs with
  | nil =>
    rw [many0]
    by_cases h : r = []
    · simp [h]
    · simp [h, hend h]
  | cons x xs ih =>
    have ih := ih (fun e he => hx e (by simp [he]))
    have hE := hx x (by simp)
    have hSt : St ((xs.map (·.1)).flatten ++ r) := by
      cases xs with
      | nil => simpa using hr
      | cons y ys => simpa using hst y.1 y.2 _ (hx y (by simp))
    have h1 := hp x.1 x.2 _ hE hSt
    have hl : 0 < x.1.length := List.length_pos_iff.2 (hne _ _ hE)
    rw [many0]
    simp only [List.map_cons, List.flatten_cons, List.append_assoc]
    rw [if_neg (by simp [hne _ _ hE]), h1]
    simp only [ih]
    rw [dif_pos (by simp only [List.length_append]; omega)]

/-! ### Domains -/

theorem tagByte_sound {c : UInt8} (i r b : Bytes) (h : complete (tag [c]) i = .done r b) : i = c :: r := by
  rw [complete_done] at h
  exact (tag_done.1 h).1

theorem tagByte_complete {c : UInt8} (i : Bytes) : ∃ b, complete (tag [c]) (c :: i) = .done i b :=
  ⟨[c], complete_done.2 (tag_done.2 ⟨rfl, rfl⟩)⟩

theorem tagByte_end {c : UInt8} {r : Bytes} (h : StopAt [c] r) : complete (tag [c]) r = .error := by
  rw [complete_error]
  intro r' a h'
  rw [(tag_done.1 h').1] at h
  exact (stopAt_cons.1 h) (by simp)

theorem stopAt_mono {s t r : Bytes} (h : ∀ c ∈ s, c ∈ t) (hr : StopAt t r) : StopAt s r :=
  fun c hc hm => hr c hc (h c hm)

theorem labelP_sound (i r : Bytes) (a : Option Bytes) (h : labelP i = .done r a) :
    ∃ x, IsLabel x ∧ i = x ++ r ∧ StopAt alnumdashC r := by
  unfold labelP at h
  obtain ⟨r1, c, h1, h2⟩ := preceded_done.1 h
  obtain ⟨rfl, hc⟩ := oneOf_done.1 h1
  rcases opt_done.1 h2 with ⟨a, rfl, h3⟩ | ⟨rfl, rfl, h3⟩
  · obtain ⟨rfl, ha, hr, _⟩ := isA_done.1 h3
    exact ⟨c :: a, ⟨c, a, rfl, (mem_alnum c).1 hc, fun x hx => (mem_alnumdash x).1 (ha x hx)⟩, by simp, hr⟩
  · obtain ⟨d, r2, rfl, hd⟩ := isA_error.1 h3
    exact ⟨[c], ⟨c, [], rfl, (mem_alnum c).1 hc, by simp⟩, by simp, stopAt_cons.2 hd⟩

theorem labelP_complete (x r : Bytes) (hx : IsLabel x) (hr : StopAt alnumdashC r) :
    ∃ a, labelP (x ++ r) = .done r a := by
  obtain ⟨c, t, rfl, hc, ht⟩ := hx
  have ht' : ∀ y ∈ t, y ∈ alnumdashC := fun y hy => (mem_alnumdash y).2 (ht y hy)
  have h1 : oneOf alnumC (c :: t ++ r) = .done (t ++ r) c := oneOf_done.2 ⟨rfl, (mem_alnum c).2 hc⟩
  by_cases hh : t = [] ∧ r ≠ []
  · obtain ⟨rfl, hrne⟩ := hh
    obtain ⟨d, r', rfl⟩ := List.exists_cons_of_ne_nil hrne
    refine ⟨none, preceded_done.2 ⟨_, c, h1, opt_done.2 (.inr ⟨rfl, rfl, ?_⟩)⟩⟩
    exact isA_error.2 ⟨d, r', rfl, stopAt_cons.1 hr⟩
  · refine ⟨some t, preceded_done.2 ⟨_, c, h1, opt_done.2 (.inl ⟨t, rfl, ?_⟩)⟩⟩
    exact isA_done.2 ⟨rfl, ht', hr, fun h => Classical.byContradiction fun h2 => hh ⟨h, h2⟩⟩

/-- Where a host name ends. -/
def HostStop (r : Bytes) : Prop := StopAt (alnumdashC ++ b!".") r

theorem hostListP_sound {i r : Bytes} {as} 
    (h : separatedNonemptyListComplete (tag b!".") labelP i = .done r as) :
    ∃ x, IsHost x ∧ i = x ++ r := by
  obtain ⟨xs, h1, h2, h3⟩ := sepNonempty_sound (E := IsLabel) tagByte_sound
    (fun i r a h _ => by
      obtain ⟨x, hx, hi, _⟩ := labelP_sound i r a (complete_done.1 h)
      exact ⟨x, hx, hi⟩) h
  exact ⟨_, ⟨xs, h1, h2, rfl⟩, h3⟩

theorem hostListP_complete {x r : Bytes} (hx : IsHost x) (hr : HostStop r) :
    ∃ as, separatedNonemptyListComplete (tag b!".") labelP (x ++ r) = .done r as := by
  obtain ⟨xs, h1, h2, rfl⟩ := hx
  apply sepNonempty_complete (E := IsLabel) (St := StopAt alnumdashC) tagByte_complete
  · rintro x ⟨c, t, rfl, _⟩; simp
  · intro x r hx hr
    obtain ⟨a, ha⟩ := labelP_complete x r hx hr
    exact ⟨a, complete_done.2 ha⟩
  · intro i; exact stopAt_cons.2 (by decide +kernel)
  · exact stopAt_mono (by simp; intros; simp [*]) hr
  · exact tagByte_end (stopAt_mono (by simp) hr)
  · exact h2
  · exact h1

theorem hostListP_error_of_head {c : UInt8} {i : Bytes} (h : c ∉ alnumC) :
    separatedNonemptyListComplete (tag b!".") labelP (c :: i) = .error := by
  have : complete labelP (c :: i) = .error := by
    rw [complete_error]
    intro r a h'
    unfold labelP at h'
    obtain ⟨r1, d, h1, h2⟩ := preceded_done.1 h'
    obtain ⟨e, hd⟩ := oneOf_done.1 h1
    simp at e; rw [e.1] at h; exact h hd
  unfold separatedNonemptyListComplete separatedNonemptyList
  rw [this]

variable {L : IpLib}

theorem hostnameP_sound {i r : Bytes} {d : Domain L} (h : hostnameP i = .done r d) :
    ∃ x, DomainText L x d ∧ i = x ++ r := by
  unfold hostnameP at h
  rcases alt_done.1 h with h | ⟨_, h⟩
  · obtain ⟨x, k, rfl⟩ := mapP_done.1 h
    obtain ⟨as, k1, rfl⟩ := recognize_done.1 k
    obtain ⟨x, hx, rfl⟩ := hostListP_sound k1
    exact ⟨x, by rw [take_consumed]; exact .host x hx, rfl⟩
  · rcases alt_done.1 h with h | ⟨_, h⟩
    · obtain ⟨a, k, rfl⟩ := mapP_done.1 h
      obtain ⟨x, k, ha⟩ := mapRes_done.1 k
      obtain ⟨r1, b, h1, h2⟩ := preceded_done.1 k
      obtain ⟨rfl, rfl⟩ := tag_done.1 h1
      obtain ⟨hx, rfl⟩ := takeUntilAndConsume_byte.1 h2
      exact ⟨_, .v6 x a hx ha, by simp⟩
    · obtain ⟨a, k, rfl⟩ := mapP_done.1 h
      obtain ⟨x, k, ha⟩ := mapRes_done.1 k
      obtain ⟨r1, b, h1, h2⟩ := preceded_done.1 k
      obtain ⟨rfl, rfl⟩ := tag_done.1 h1
      obtain ⟨hx, rfl⟩ := takeUntilAndConsume_byte.1 h2
      exact ⟨_, .v4 x a hx ha, by simp⟩

theorem hostnameP_complete (hL : IpLaws L) {x r : Bytes} {d : Domain L} (h : DomainText L x d)
    (hr : HostStop r) : hostnameP (x ++ r) = .done r d := by
  have hbr : ∀ i : Bytes, mapP (recognize (separatedNonemptyListComplete (tag b!".") labelP))
      (Domain.host (L := L)) (91 :: i) = .error := by
    intro i
    rw [mapP_error, recognize_error]
    exact hostListP_error_of_head (by decide +kernel)
  cases h with
  | host h hx =>
    obtain ⟨as, h1⟩ := hostListP_complete hx hr
    apply alt_done.2 (.inl _)
    exact mapP_done.2 ⟨x, recognize_done.2 ⟨as, h1, take_consumed.symm⟩, rfl⟩
  | v4 y a hy ha =>
    refine alt_done.2 (.inr ⟨hbr _, alt_done.2 (.inr ⟨?_, ?_⟩)⟩)
    · rw [mapP_error]
      have : preceded (tag b!"[IPv6:") (takeUntilAndConsume b!"]") (b!"[" ++ y ++ b!"]" ++ r) = .error := by
        apply bind_of_error
        cases y with
        | nil => simp [tag, tagBy, compareBy]
        | cons c y =>
          have : c ≠ 73 := by
            rintro rfl
            have := hL.chars4 _ a ha 73 (by simp)
            revert this; decide
          simp [tag, tagBy, compareBy, this]
      exact bind_of_error this
    · refine mapP_done.2 ⟨a, mapRes_done.2 ⟨y, preceded_done.2 ⟨y ++ b!"]" ++ r, b!"[", ?_, ?_⟩, ha⟩, rfl⟩
      · exact tag_done.2 ⟨by simp, rfl⟩
      · exact takeUntilAndConsume_byte.2 ⟨hy, by simp⟩
  | v6 y a hy ha =>
    refine alt_done.2 (.inr ⟨hbr _, alt_done.2 (.inl ?_)⟩)
    refine mapP_done.2 ⟨a, mapRes_done.2 ⟨y, preceded_done.2 ⟨y ++ b!"]" ++ r, b!"[IPv6:", ?_, ?_⟩, ha⟩, rfl⟩
    · exact tag_done.2 ⟨by simp, rfl⟩
    · exact takeUntilAndConsume_byte.2 ⟨hy, by simp⟩

/-! ### Addresses -/

theorem dotStringP_sound {i r x : Bytes} (h : dotStringP i = .done r x) :
    IsDotString x ∧ i = x ++ r := by
  unfold dotStringP at h
  obtain ⟨as, k, rfl⟩ := recognize_done.1 h
  obtain ⟨xs, h1, h2, rfl⟩ := sepNonempty_sound (c := 46) (p := complete (isA atextC)) (E := fun l => l ≠ [] ∧ ∀ c ∈ l, Atext c) tagByte_sound
    (fun i r a h hlt => by
      obtain ⟨rfl, ha, _, _⟩ := isA_done.1 (complete_done.1 h)
      refine ⟨a, ⟨?_, fun c hc => (mem_atext c).1 (ha c hc)⟩, rfl⟩
      rintro rfl; simp at hlt) k
  rw [take_consumed]
  exact ⟨⟨xs, h1, h2, rfl⟩, rfl⟩

/-- Where a local part ends. -/
def LocalStop (r : Bytes) : Prop := StopAt (atextC ++ b!".") r

theorem dotStringP_complete {x r : Bytes} (hx : IsDotString x) (hr : LocalStop r) :
    dotStringP (x ++ r) = .done r x := by
  obtain ⟨xs, h1, h2, rfl⟩ := hx
  have := sepNonempty_complete (E := fun l => l ≠ [] ∧ ∀ c ∈ l, Atext c) (St := StopAt atextC)
    (sep := complete (tag b!".")) (p := complete (isA atextC)) (c := 46) (r := r) tagByte_complete
    (fun x h => h.1)
    (fun x r hx hr => ⟨x, complete_done.2 (isA_done.2 ⟨rfl, fun c hc => (mem_atext c).2 (hx.2 c hc), hr,
      fun h => absurd h hx.1⟩)⟩)
    (fun i => stopAt_cons.2 (by decide +kernel))
    (stopAt_mono (by simp; intros; simp [*]) hr)
    (tagByte_end (stopAt_mono (by simp) hr)) xs h2 h1
  obtain ⟨as, h⟩ := this
  exact recognize_done.2 ⟨as, h, take_consumed.symm⟩

theorem quotedItemP_sound {i r a : Bytes} (h : quotedItemP i = .done r a) :
    ∃ x c, QItem x c ∧ a = [c] ∧ i = x ++ r := by
  unfold quotedItemP at h
  rcases alt_done.1 h with h | ⟨_, h⟩
  · obtain ⟨r1, b, h1, h2⟩ := preceded_done.1 h
    obtain ⟨rfl, rfl⟩ := tag_done.1 h1
    obtain ⟨h2, hv⟩ := verify_done.1 h2
    obtain ⟨rfl, hl⟩ := take_done.1 h2
    match a, hl with
    | [c], _ =>
      simp at hv
      exact ⟨_, c, .escaped c hv, rfl, by simp⟩
  · obtain ⟨h2, hv⟩ := verify_done.1 h
    obtain ⟨rfl, hl⟩ := take_done.1 h2
    match a, hl with
    | [c], _ =>
      simp at hv
      exact ⟨_, c, .plain c ⟨hv.1.1.1, hv.2⟩ hv.1.1.2 hv.1.2, rfl, by simp⟩

theorem quotedItemP_complete {x r : Bytes} {c : UInt8} (h : QItem x c) :
    quotedItemP (x ++ r) = .done r [c] := by
  cases h with
  | plain c hp h34 h92 =>
    refine alt_done.2 (.inr ⟨bind_of_error ?_, verify_done.2 ⟨take_done.2 ⟨rfl, rfl⟩, ?_⟩⟩)
    · exact tag_head_ne h92
    · simpa [h34, h92, Printable] using hp
  | escaped c hp =>
    refine alt_done.2 (.inl (preceded_done.2 ⟨c :: r, b!"\\", tag_done.2 ⟨rfl, rfl⟩,
      verify_done.2 ⟨take_done.2 ⟨rfl, rfl⟩, ?_⟩⟩))
    simpa [Printable] using hp

theorem quotedStringP_sound {i r x : Bytes} (h : quotedStringP i = .done r x) :
    (∃ content, IsQuoted x content) ∧ i = x ++ r := by
  unfold quotedStringP at h
  obtain ⟨u, k, rfl⟩ := recognize_done.1 h
  simp only [bind_done, pure_done] at k
  obtain ⟨r1, _, h1, r2, as, h2, r3, _, h3, rfl, _⟩ := k
  obtain ⟨rfl, _⟩ := tag_done.1 h1
  obtain ⟨rfl, _⟩ := tag_done.1 h3
  obtain ⟨xs, hx, rfl, rfl⟩ := many0_sound (E := fun x a => ∃ c, QItem x c ∧ a = [c])
    (fun i r a h _ => by
      obtain ⟨x, c, hq, rfl, rfl⟩ := quotedItemP_sound h
      exact ⟨x, ⟨c, hq, rfl⟩, rfl⟩) (by simp) h2
  have e : b!"\"" ++ ((xs.map (·.1)).flatten ++ (b!"\"" ++ r)) =
      ([34] ++ (xs.map (·.1)).flatten ++ [34]) ++ r := by simp
  rw [e, take_consumed]
  refine ⟨⟨xs.map (fun e => e.2.getD 0 0), xs.map (fun e => (e.1, e.2.getD 0 0)), ?_, ?_, ?_⟩, rfl⟩
  · intro e he
    obtain ⟨e', he', rfl⟩ := List.mem_map.1 he
    obtain ⟨c, hc, hc2⟩ := hx e' he'
    simpa [hc2] using hc
  · simp [Function.comp_def]
  · simp [Function.comp_def]

theorem quotedStringP_complete {x content r : Bytes} (h : IsQuoted x content) :
    quotedStringP (x ++ r) = .done r x := by
  obtain ⟨items, hi, rfl, rfl⟩ := h
  have := many0_complete (p := quotedItemP) (E := fun x a => ∃ c, QItem x c ∧ a = [c])
    (St := fun _ => True) (r := 34 :: r)
    (by rintro x a ⟨c, hq, _⟩; cases hq <;> simp)
    (by rintro x a r ⟨c, hq, rfl⟩ _; exact quotedItemP_complete hq)
    (by simp) trivial
    (by
      intro _
      refine alt_error.2 ⟨bind_of_error (tag_head_ne (by decide)), ?_⟩
      apply Classical.byContradiction
      intro hne
      simp [verify, Parser.bind, take, Parser.fail] at hne)
    (items.map (fun e => (e.1, [e.2])))
    (by
      intro e he
      obtain ⟨e', he', rfl⟩ := List.mem_map.1 he
      exact ⟨e'.2, hi e' he', rfl⟩)
  refine recognize_done.2 ⟨(), ?_, take_consumed.symm⟩
  simp only [bind_done, pure_done]
  refine ⟨(items.map (·.1)).flatten ++ 34 :: r, b!"\"", tag_done.2 ⟨by simp, rfl⟩, 34 :: r, items.map (fun e => [e.2]), ?_,
    r, b!"\"", tag_done.2 ⟨by simp, rfl⟩, rfl, trivial⟩
  simpa [Function.comp_def] using this

theorem localpartP_sound {i r x : Bytes} (h : localpartP i = .done r x) :
    (∃ content, IsLocal x content) ∧ i = x ++ r := by
  rcases alt_done.1 h with h | ⟨_, h⟩
  · obtain ⟨⟨c, hc⟩, hi⟩ := quotedStringP_sound h
    exact ⟨⟨c, .inr hc⟩, hi⟩
  · obtain ⟨hx, hi⟩ := dotStringP_sound h
    exact ⟨⟨x, .inl ⟨hx, rfl⟩⟩, hi⟩

/-- The first byte of a dot-string is an atext. -/
theorem dotString_head {x : Bytes} (h : IsDotString x) : ∃ c t, x = c :: t ∧ Atext c := by
  obtain ⟨ls, h1, h2, rfl⟩ := h
  obtain ⟨l, ls, rfl⟩ := List.exists_cons_of_ne_nil h1
  obtain ⟨hl, hc⟩ := h2 l (by simp)
  obtain ⟨c, t, rfl⟩ := List.exists_cons_of_ne_nil hl
  exact ⟨c, t ++ ls.flatMap (46 :: ·), by simp [joinWith_cons], hc c (by simp)⟩

theorem localpartP_complete {x content r : Bytes} (h : IsLocal x content) (hr : LocalStop r) :
    localpartP (x ++ r) = .done r x := by
  rcases h with ⟨h, _⟩ | h
  · refine alt_done.2 (.inr ⟨?_, dotStringP_complete h hr⟩)
    obtain ⟨c, t, rfl, hc⟩ := dotString_head h
    unfold quotedStringP
    rw [recognize_error]
    exact bind_of_error (tag_head_ne (by rintro rfl; revert hc; decide))
  · exact alt_done.2 (.inl (quotedStringP_complete h))

/-- Where an address ends. -/
def EmailStop (r : Bytes) : Prop := StopAt (atextC ++ b!".@") r

theorem EmailStop.local {r : Bytes} (h : EmailStop r) : LocalStop r :=
  stopAt_mono (by simp; intro c hc; rcases hc with h | h <;> simp [h]) h

theorem alnumdash_atext : ∀ c : UInt8, c ∈ alnumdashC → c ∈ atextC := by decide +kernel

theorem EmailStop.host {r : Bytes} (h : EmailStop r) : HostStop r :=
  stopAt_mono (by
    simp; intro c hc; rcases hc with h | h
    · exact .inl (alnumdash_atext c h)
    · simp [h]) h

theorem emailP_sound {i r : Bytes} {e : Email L} (h : emailP i = .done r e) :
    ∃ x, EmailText L x e ∧ i = x ++ r := by
  unfold emailP at h
  simp only [bind_done, pure_done] at h
  obtain ⟨r1, loc, h1, r2, host, h2, rfl, rfl⟩ := h
  obtain ⟨hl, rfl⟩ := localpartP_sound h1
  rcases opt_done.1 h2 with ⟨d, rfl, h3⟩ | ⟨rfl, rfl, h3⟩
  · obtain ⟨r3, b, h4, h5⟩ := preceded_done.1 (complete_done.1 h3)
    obtain ⟨rfl, _⟩ := tag_done.1 h4
    obtain ⟨dt, hd, rfl⟩ := hostnameP_sound h5
    exact ⟨loc ++ [64] ++ dt, ⟨hl, .inr ⟨d, dt, rfl, hd, rfl⟩⟩, by simp⟩
  · exact ⟨loc, ⟨hl, .inl ⟨rfl, rfl⟩⟩, rfl⟩

theorem emailP_complete (hL : IpLaws L) {x r : Bytes} {e : Email L} (h : EmailText L x e)
    (hr : EmailStop r) : emailP (x ++ r) = .done r e := by
  obtain ⟨loc, host⟩ := e
  obtain ⟨⟨content, hl⟩, ⟨h1, h2⟩ | ⟨d, dt, h1, hd, h2⟩⟩ := h <;> simp at h1 hl h2 <;> subst h1 h2
  · unfold emailP
    simp only [bind_done, pure_done]
    refine ⟨r, x, localpartP_complete hl hr.local, r, none, opt_done.2 (.inr ⟨rfl, rfl, ?_⟩), rfl, rfl⟩
    rw [complete_error]
    intro r' a h
    obtain ⟨r3, b, h4, h5⟩ := preceded_done.1 h
    obtain ⟨rfl, _⟩ := tag_done.1 h4
    exact (stopAt_cons.1 hr) (by simp)
  · unfold emailP
    simp only [bind_done, pure_done]
    refine ⟨64 :: (dt ++ r), loc, ?_, r, some d, opt_done.2 (.inl ⟨d, rfl, complete_done.2 (preceded_done.2
      ⟨dt ++ r, [64], tag_done.2 ⟨rfl, rfl⟩, hostnameP_complete hL hd hr.host⟩)⟩), rfl, rfl⟩
    have := localpartP_complete (r := 64 :: (dt ++ r)) hl (stopAt_cons.2 (by decide +kernel))
    simpa using this

theorem emailText_head {x : Bytes} {e : Email L} (h : EmailText L x e) :
    ∃ c t, x = c :: t ∧ (Atext c ∨ c = 34) := by
  obtain ⟨⟨content, hl⟩, h⟩ := h
  have hloc : ∃ c t, e.localpart = c :: t ∧ (Atext c ∨ c = 34) := by
    rcases hl with ⟨hl, _⟩ | ⟨items, _, hs, _⟩
    · obtain ⟨c, t, h1, h2⟩ := dotString_head hl
      exact ⟨c, t, h1, .inl h2⟩
    · exact ⟨34, _, by rw [hs]; simp; rfl, .inr rfl⟩
  obtain ⟨c, t, h1, h2⟩ := hloc
  rcases h with ⟨_, h⟩ | ⟨d, dt, _, _, h⟩
  · exact ⟨c, t, by rw [h, h1], h2⟩
  · exact ⟨c, t ++ [64] ++ dt, by rw [h, h1]; simp, h2⟩

theorem hopP_sound (i r : Bytes) (a : Unit) (h : hopP L i = .done r a) (_ : r.length < i.length) :
    ∃ x, (∃ dt d, DomainText L dt d ∧ x = [64] ++ dt) ∧ i = x ++ r := by
  unfold hopP at h
  simp only [bind_done, pure_done] at h
  obtain ⟨r1, _, h1, r2, d, h2, rfl, _⟩ := h
  obtain ⟨rfl, _⟩ := tag_done.1 h1
  obtain ⟨dt, hd, rfl⟩ := hostnameP_sound h2
  exact ⟨_, ⟨dt, d, hd, rfl⟩, by simp⟩

theorem hopP_complete (hL : IpLaws L) {x r : Bytes} (h : ∃ dt d, DomainText L dt d ∧ x = [64] ++ dt)
    (hr : HostStop r) : hopP L (x ++ r) = .done r () := by
  obtain ⟨dt, d, hd, rfl⟩ := h
  unfold hopP
  simp only [bind_done, pure_done]
  exact ⟨dt ++ r, [64], tag_done.2 ⟨by simp, rfl⟩, r, d, hostnameP_complete hL hd hr, rfl, trivial⟩

theorem routeP_sound {i r : Bytes} {u : Unit} (h : routeP L i = .done r u) :
    ∃ x, IsRoute L x ∧ i = x ++ r := by
  unfold routeP at h
  simp only [bind_done, pure_done] at h
  obtain ⟨r1, _, h1, r2, _, h2, rfl, _⟩ := h
  obtain ⟨rfl, _⟩ := tag_done.1 h2
  obtain ⟨xs, hx, rfl⟩ := sepList_sound (c := 44) (E := fun x => ∃ dt d, DomainText L dt d ∧ x = [64] ++ dt)
    (fun i r b h => (tag_done.1 h).1) hopP_sound h1
  exact ⟨_, ⟨xs, hx, rfl⟩, by simp⟩

theorem routeP_complete (hL : IpLaws L) {x r : Bytes} (h : IsRoute L x) :
    routeP L (x ++ r) = .done r () := by
  obtain ⟨hops, hh, rfl⟩ := h
  obtain ⟨as, h⟩ := sepList_complete (c := 44) (sep := tag b!",") (p := hopP L) (r := 58 :: r)
    (E := fun x => ∃ dt d, DomainText L dt d ∧ x = [64] ++ dt) (St := HostStop)
    (fun i => ⟨_, tag_cons 44 i⟩)
    (by rintro x ⟨dt, d, _, rfl⟩; simp)
    (fun x r hx hr => ⟨(), hopP_complete hL hx hr⟩)
    (fun i => stopAt_cons.2 (by decide +kernel)) (stopAt_cons.2 (by decide +kernel))
    (tag_head_ne (by decide)) (bind_of_error (tag_head_ne (by decide))) hops hh
  unfold routeP
  simp only [bind_done, pure_done]
  exact ⟨58 :: r, as, by simpa using h, r, [58], tag_cons 58 r, rfl, trivial⟩

theorem addressInPathP_sound {i r : Bytes} {e : Email L} (h : addressInPathP i = .done r e) :
    ∃ x, PathText L x e ∧ i = x ++ r := by
  obtain ⟨r1, u, h1, h2⟩ := preceded_done.1 h
  obtain ⟨et, he, rfl⟩ := emailP_sound h2
  rcases opt_done.1 h1 with ⟨_, _, h3⟩ | ⟨_, h3, _⟩
  · obtain ⟨x, hx, rfl⟩ := routeP_sound h3
    exact ⟨x ++ et, ⟨x, et, .inr hx, he, rfl⟩, by simp⟩
  · subst h3
    exact ⟨et, ⟨[], et, .inl rfl, he, rfl⟩, rfl⟩

theorem addressInPathP_complete (hL : IpLaws L) {x r : Bytes} {e : Email L} (h : PathText L x e)
    (hr : EmailStop r) : addressInPathP (x ++ r) = .done r e := by
  obtain ⟨route, et, hrt, he, rfl⟩ := h
  have hem := emailP_complete hL he hr
  rcases hrt with rfl | hrt
  · refine preceded_done.2 ⟨et ++ r, none, opt_done.2 (.inr ⟨rfl, by simp, ?_⟩), hem⟩
    obtain ⟨c, t, rfl, hc⟩ := emailText_head he
    have h64 : c ≠ 64 := by rintro rfl; revert hc; decide +kernel
    have h58 : c ≠ 58 := by rintro rfl; revert hc; decide +kernel
    unfold routeP
    refine bind_error.2 (.inr ⟨c :: (t ++ r), [], ?_, bind_of_error (tag_head_ne h58)⟩)
    have : hopP L (c :: (t ++ r)) = .error := bind_of_error (tag_head_ne h64)
    simp [separatedList, this]
  · refine preceded_done.2 ⟨et ++ r, some (), opt_done.2 (.inl ⟨(), rfl, ?_⟩), hem⟩
    have := routeP_complete hL (r := et ++ r) hrt
    simpa using this

theorem pathText_head {x : Bytes} {e : Email L} (h : PathText L x e) :
    ∃ c t, x = c :: t ∧ (Atext c ∨ c = 34 ∨ c = 64 ∨ c = 58) := by
  obtain ⟨route, et, hrt, he, rfl⟩ := h
  rcases hrt with rfl | ⟨hops, hh, rfl⟩
  · obtain ⟨c, t, rfl, hc⟩ := emailText_head he
    exact ⟨c, t, by simp, by rcases hc with h | h <;> simp [h]⟩
  · cases hops with
    | nil => exact ⟨58, et, by simp [joinWith], by simp⟩
    | cons y ys =>
      obtain ⟨dt, d, _, rfl⟩ := hh y (by simp)
      exact ⟨64, dt ++ ys.flatMap (44 :: ·) ++ [58] ++ et, by simp [joinWith_cons], by simp⟩

theorem pathHead_props : ∀ c : UInt8, (Atext c ∨ c = 34 ∨ c = 64 ∨ c = 58) →
    c ≠ 60 ∧ c ≠ 62 ∧ c ≠ 13 ∧ ¬ Blank c := by decide +kernel

theorem maybeBracketedP_sound {i r : Bytes} {e : Email L} (h : maybeBracketedP i = .done r e) :
    ∃ x, MaybeBracketed L x e ∧ i = x ++ r := by
  rcases alt_done.1 h with h | ⟨_, h⟩
  · simp only [bind_done, pure_done] at h
    obtain ⟨r1, _, h1, r2, addr, h2, r3, _, h3, rfl, rfl⟩ := h
    obtain ⟨rfl, _⟩ := tag_done.1 h1
    obtain ⟨rfl, _⟩ := tag_done.1 h3
    obtain ⟨x, hx, rfl⟩ := addressInPathP_sound h2
    exact ⟨[60] ++ x ++ [62], .inr ⟨x, hx, rfl⟩, by simp⟩
  · obtain ⟨x, hx, rfl⟩ := addressInPathP_sound h
    exact ⟨x, .inl hx, rfl⟩

theorem maybeBracketedP_complete (hL : IpLaws L) {x r : Bytes} {e : Email L}
    (h : MaybeBracketed L x e) (hr : EmailStop r) : maybeBracketedP (x ++ r) = .done r e := by
  rcases h with h | ⟨t, h, rfl⟩
  · refine alt_done.2 (.inr ⟨?_, addressInPathP_complete hL h hr⟩)
    obtain ⟨c, t, rfl, hc⟩ := pathText_head h
    exact bind_of_error (tag_head_ne (pathHead_props c hc).1)
  · refine alt_done.2 (.inl ?_)
    simp only [bind_done, pure_done]
    exact ⟨t ++ 62 :: r, [60], tag_done.2 ⟨by simp, rfl⟩, 62 :: r, e,
      addressInPathP_complete hL h (stopAt_cons.2 (by decide +kernel)), r, [62], tag_cons 62 r, rfl, rfl⟩

end Verif
