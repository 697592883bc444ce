import Verif.Spec.Ip
/-
The parsers and printers of IP addresses against their specification.
-/
namespace Verif.Ip
open Spec

instance (c : UInt8) : Decidable (IsDigit c) := by unfold IsDigit; infer_instance
instance (c : UInt8) : Decidable (HexDigit c) := by unfold HexDigit; infer_instance

theorem readDigit_ten : ∀ c, readDigit 10 c = if IsDigit c then some (digitValue c) else none := by decide +kernel
theorem readDigit_sixteen : ∀ c, readDigit 16 c = if HexDigit c then some (digitValue c) else none := by decide +kernel

theorem le_fold {radix : Nat} (hr : 1 ≤ radix) (ds : Bytes) (r : Nat) :
    r ≤ ds.foldl (fun r c => r * radix + digitValue c) r := by
  induction ds generalizing r with
  | nil => exact Nat.le_refl _
  | cons c ds ih =>
    refine Nat.le_trans ?_ (ih _)
    calc r = r * 1 := by omega
      _ ≤ r * radix := Nat.mul_le_mul_left _ hr
      _ ≤ _ := Nat.le_add_right _ _

section
variable {radix mx up : Nat} {D : UInt8 → Prop} [DecidablePred D]
  (hD : ∀ c, readDigit radix c = if D c then some (digitValue c) else none)
include hD

theorem loop_sound {r n : Nat} {s t : Bytes} {v : Nat} (hn : n ≤ mx) (hr : r < up)
    (h : readNumberLoop radix mx up r n s = some (v, t)) :
    ∃ ds, s = ds ++ t ∧ (∀ c ∈ ds, D c) ∧ v = ds.foldl (fun r c => r * radix + digitValue c) r ∧
      n + ds.length ≤ mx ∧ 0 < n + ds.length ∧ v < up ∧ (∀ c, t.head? = some c → ¬ D c) := by
  induction s generalizing r n with
  | nil =>
    unfold readNumberLoop at h
    split at h
    · simp at h
    · simp at h
      obtain ⟨rfl, rfl⟩ := h
      exact ⟨[], by simp, by simp, rfl, by simpa using hn, by simp; omega, hr, by simp⟩
  | cons c s ih =>
    unfold readNumberLoop at h
    rw [hD c] at h
    by_cases hc : D c
    · simp only [hc, if_true] at h
      split at h
      · simp at h
      · rename_i hb
        obtain ⟨ds, h1, h2, h3, h4, h5, h6, h7⟩ := ih (by omega) (by omega) h
        refine ⟨c :: ds, by simp [h1], ?_, by simpa using h3, by simp; omega, by simp; omega, h6, h7⟩
        intro x hx
        rcases List.mem_cons.1 hx with rfl | hx
        · exact hc
        · exact h2 x hx
    · simp only [hc, if_false] at h
      split at h
      · simp at h
      · simp at h
        obtain ⟨rfl, rfl⟩ := h
        exact ⟨[], by simp, by simp, rfl, by simpa using hn, by simp; omega, hr, by simpa using hc⟩

theorem loop_complete (h1 : 1 ≤ radix) {r n : Nat} {ds t : Bytes} (hd : ∀ c ∈ ds, D c)
    (hv : ds.foldl (fun r c => r * radix + digitValue c) r < up) (hl : n + ds.length ≤ mx) (hp : 0 < n + ds.length)
    (ht : ∀ c, t.head? = some c → ¬ D c) :
    readNumberLoop radix mx up r n (ds ++ t) = some (ds.foldl (fun r c => r * radix + digitValue c) r, t) := by
  induction ds generalizing r n with
  | nil =>
    simp at hp
    cases t with
    | nil => simp [readNumberLoop]; omega
    | cons c t =>
      have := ht c rfl
      simp [readNumberLoop, hD, this]; omega
  | cons c ds ih =>
    have hc := hd c (by simp)
    have hb := le_fold h1 ds (r * radix + digitValue c)
    simp only [List.foldl_cons] at hv
    simp only [List.cons_append, readNumberLoop, hD, hc, if_true, List.foldl_cons]
    simp only [List.length_cons] at hl
    rw [if_neg (by omega)]
    exact ih (fun x hx => hd x (by simp [hx])) hv (by omega) (by omega)

end

/-! ### IPv4 -/

theorem readOctet_sound {s t : Bytes} {v : Nat} (h : readNumber 10 3 256 s = some (v, t)) :
    ∃ x, s = x ++ t ∧ OctetText x v.toUInt8 ∧ (∀ c, t.head? = some c → ¬ IsDigit c) := by
  obtain ⟨ds, h1, h2, h3, h4, h5, h6, h7⟩ := loop_sound readDigit_ten (by omega) (by omega) h
  refine ⟨ds, h1, ⟨by intro h; simp [h] at h5, by omega, h2, ?_⟩, h7⟩
  rw [numberValue, ← h3, Nat.toUInt8, UInt8.toNat_ofNat', Nat.mod_eq_of_lt (by simpa using h6)]

theorem readOctet_complete {x t : Bytes} {o : UInt8} (h : OctetText x o) (ht : ∀ c, t.head? = some c → ¬ IsDigit c) :
    readNumber 10 3 256 (x ++ t) = some (o.toNat, t) := by
  obtain ⟨h1, h2, h3, h4⟩ := h
  have := o.toNat_lt
  have := loop_complete readDigit_ten (by omega) (mx := 3) (up := 256) (r := 0) (n := 0) h3
    (by rw [← numberValue, h4]; exact this) (by omega) (by have := List.length_pos_iff.2 h1; omega) ht
  rw [← numberValue, h4] at this
  exact this

theorem readGiven_eq {c : UInt8} {s t : Bytes} : readGiven c s = some t ↔ s = c :: t := by
  cases s with
  | nil => simp [readGiven]
  | cons x s =>
    simp only [readGiven]
    split <;> simp_all

theorem ofNat_toNat8 (o : UInt8) : o.toNat.toUInt8 = o := by simp [Nat.toUInt8]

theorem readV4_sound {s t : Bytes} {v : V4} (h : readV4 s = some (v, t)) :
    ∃ x, s = x ++ t ∧ V4Text x v ∧ (∀ c, t.head? = some c → ¬ IsDigit c) := by
  simp only [readV4, Option.bind_eq_bind, Option.bind_eq_some_iff, Prod.exists] at h
  obtain ⟨a, s1, h1, s2, h2, b, s3, h3, s4, h4, c, s5, h5, s6, h6, d, s7, h7, h8⟩ := h
  simp at h8
  obtain ⟨rfl, rfl⟩ := h8
  obtain ⟨xa, rfl, ha, _⟩ := readOctet_sound h1
  obtain ⟨xb, rfl, hb, _⟩ := readOctet_sound h3
  obtain ⟨xc, rfl, hc, _⟩ := readOctet_sound h5
  obtain ⟨xd, rfl, hd, ht⟩ := readOctet_sound h7
  rw [readGiven_eq] at h2 h4 h6
  subst h2 h4 h6
  exact ⟨_, by simp, ⟨xa, xb, xc, xd, rfl, ha, hb, hc, hd⟩, ht⟩

theorem readV4_complete {x t : Bytes} {v : V4} (h : V4Text x v) (ht : ∀ c, t.head? = some c → ¬ IsDigit c) :
    readV4 (x ++ t) = some (v, t) := by
  obtain ⟨a, b, c, d, rfl, ha, hb, hc, hd⟩ := h
  have hdot : ∀ y : Bytes, ∀ c, (b!"." ++ y).head? = some c → ¬ IsDigit c := by
    intro y c hc
    simp at hc
    subst hc
    decide
  have hg : ∀ y : Bytes, readGiven 46 (b!"." ++ y) = some y := fun y => readGiven_eq.2 rfl
  simp only [readV4, List.append_assoc, Option.bind_eq_bind]
  simp only [readOctet_complete ha (hdot _), readOctet_complete hb (hdot _), readOctet_complete hc (hdot _),
    readOctet_complete hd ht, Option.bind_some, hg, ofNat_toNat8]
  rfl

theorem parse4_iff {x : Bytes} {v : V4} : parse4 x = some v ↔ V4Text x v := by
  constructor
  · intro h
    unfold parse4 at h
    split at h
    · rename_i a hr
      simp at h
      subst h
      obtain ⟨y, h1, h2, _⟩ := readV4_sound hr
      simp at h1
      exact h1 ▸ h2
    · simp at h
  · intro h
    have := readV4_complete h (t := []) (by simp)
    simp at this
    simp [parse4, this]

/-! ### IPv6 -/

theorem readHex_sound {s t : Bytes} {v : Nat} (h : readNumber 16 4 65536 s = some (v, t)) :
    ∃ x, s = x ++ t ∧ GroupText x v.toUInt16 ∧ (∀ c, t.head? = some c → ¬ HexDigit c) := by
  obtain ⟨ds, h1, h2, h3, h4, h5, h6, h7⟩ := loop_sound readDigit_sixteen (by omega) (by omega) h
  refine ⟨ds, h1, ⟨by intro h; simp [h] at h5, by omega, h2, ?_⟩, h7⟩
  rw [numberValue, ← h3, Nat.toUInt16, UInt16.toNat_ofNat', Nat.mod_eq_of_lt (by simpa using h6)]

theorem readHex_complete {x t : Bytes} {g : UInt16} (h : GroupText x g) (ht : ∀ c, t.head? = some c → ¬ HexDigit c) :
    readNumber 16 4 65536 (x ++ t) = some (g.toNat, t) := by
  obtain ⟨h1, h2, h3, h4⟩ := h
  have := g.toNat_lt
  have := loop_complete readDigit_sixteen (by omega) (mx := 4) (up := 65536) (r := 0) (n := 0) h3
    (by rw [← numberValue, h4]; exact this) (by omega) (by have := List.length_pos_iff.2 h1; omega) ht
  rw [← numberValue, h4] at this
  exact this

theorem ofNat_toNat16 (o : UInt16) : o.toNat.toUInt16 = o := by simp [Nat.toUInt16]

theorem readSep_eq {first : Bool} {s t : Bytes} :
    readSep first s = some t ↔ s = (if first then [] else b!":") ++ t := by
  cases first <;> simp [readSep, readGiven_eq]

/-- The beginning of the groups that follow. -/
def lead (first : Bool) (gs : List UInt16) : Bytes := if first ∨ gs = [] then [] else b!":"

theorem group_toNat (a b : UInt8) : (group a b).toNat = a.toNat * 256 + b.toNat := by
  have := a.toNat_lt; have := b.toNat_lt
  rw [group, Nat.toUInt16, UInt16.toNat_ofNat', Nat.mod_eq_of_lt (by omega)]

theorem readGroups_sound (k : Nat) (first : Bool) (s : Bytes) :
    ∃ x, s = lead first (readGroups k first s).1 ++ x ++ (readGroups k first s).2.2 ∧
      GroupsText x (readGroups k first s).1 (readGroups k first s).2.1 ∧ (readGroups k first s).1.length ≤ k := by
  induction k generalizing first s with
  | zero => exact ⟨[], by simp [readGroups, lead], .nil, by simp [readGroups]⟩
  | succ k ih =>
    rw [readGroups]
    split
    · rename_i v t hv
      split at hv
      · rw [Option.bind_eq_some_iff] at hv
        obtain ⟨s1, h1, h2⟩ := hv
        rw [readSep_eq] at h1
        obtain ⟨x, h3, h4, _⟩ := readV4_sound h2
        refine ⟨x, ?_, .v4 h4 (group_toNat _ _) (group_toNat _ _), by simp; omega⟩
        rw [h1, h3]
        cases first <;> simp [lead]
      · simp at hv
    · split
      · rename_i g t hg
        rw [Option.bind_eq_some_iff] at hg
        obtain ⟨s1, h1, h2⟩ := hg
        rw [readSep_eq] at h1
        obtain ⟨x, h3, h4, _⟩ := readHex_sound h2
        obtain ⟨y, h5, h6, h7⟩ := ih false t
        by_cases hgs : (readGroups k false t).1 = []
        · refine ⟨x ++ y, ?_, ?_, by simpa using h7⟩
          · dsimp only
            rw [h1, h3]
            conv => lhs; rw [h5]
            cases first <;> simp [lead, hgs]
          · rw [hgs] at h6 ⊢
            generalize he : (readGroups k false t).2.1 = e at h6 ⊢
            cases h6
            simpa using GroupsText.last h4
        · refine ⟨x ++ b!":" ++ y, ?_, ?_, by simpa using h7⟩
          · dsimp only
            rw [h1, h3]
            conv => lhs; rw [h5]
            cases first <;> simp [lead, hgs]
          · exact .cons h4 h6 hgs
      · exact ⟨[], by simp [lead], .nil, by simp⟩

/-- What may follow the groups. -/
def Stop (t : Bytes) : Prop := t = [] ∨ ∃ r, t = b!"::" ++ r

theorem readV4_not_hex {x t : Bytes} (hx : ∀ c ∈ x, HexDigit c) (ht : ∀ c, t.head? = some c → c = 58) :
    readV4 (x ++ t) = none := by
  cases h : readV4 (x ++ t) with
  | none => rfl
  | some p =>
    exfalso
    obtain ⟨v, u⟩ := p
    simp only [readV4, Option.bind_eq_bind, Option.bind_eq_some_iff, Prod.exists] at h
    obtain ⟨a, s1, h1, s2, h2, _⟩ := h
    obtain ⟨xa, h3, ha, _⟩ := readOctet_sound h1
    rw [readGiven_eq] at h2
    subst h2
    rcases List.append_eq_append_iff.1 h3 with ⟨c, h4, h5⟩ | ⟨c, h4, h5⟩
    · cases c with
      | nil => simp at h5; rw [h5] at ht; simp at ht
      | cons c0 c =>
        obtain ⟨_, _, hd, _⟩ := ha
        have hm := hd c0 (by rw [h4]; simp)
        obtain rfl := ht c0 (by rw [h5]; rfl)
        revert hm
        decide
    · cases c with
      | nil => simp at h5; rw [← h5] at ht; simp at ht
      | cons c0 c =>
        simp at h5
        have := hx c0 (by rw [h4]; simp)
        rw [← h5.1] at this
        revert this
        decide

theorem Stop.head {t : Bytes} (h : Stop t) : ∀ c, t.head? = some c → c = 58 := by
  rcases h with rfl | ⟨r, rfl⟩
  · simp
  · intro c hc; simp at hc; exact hc.symm

theorem not_hex_colon {t : Bytes} (h : ∀ c, t.head? = some c → c = 58) : ∀ c, t.head? = some c → ¬ HexDigit c := by
  intro c hc
  rw [h c hc]
  decide

theorem readNumber_colon {t : Bytes} (h : ∀ c, t.head? = some c → c = 58) (a b : Nat) :
    readNumber 16 a b t = none ∧ readNumber 10 a b t = none := by
  cases t with
  | nil => simp [readNumber, readNumberLoop]
  | cons c t =>
    obtain rfl := h c rfl
    have h1 : readDigit 16 58 = none := by decide
    have h2 : readDigit 10 58 = none := by decide
    simp [readNumber, readNumberLoop, h1, h2]

theorem readGroups_stop (k : Nat) (first : Bool) {t : Bytes} (h : Stop t) : readGroups k first t = ([], false, t) := by
  cases k with
  | zero => rfl
  | succ k =>
    have hs : ∀ u, readSep first t = some u → ∀ c, u.head? = some c → c = 58 := by
      intro u hu
      rw [readSep_eq] at hu
      cases first
      · rcases h with rfl | ⟨r, rfl⟩
        · simp at hu
        · simp at hu
          subst hu
          simp
      · simp at hu
        exact hu ▸ h.head
    have h1 : (readSep first t).bind readV4 = none := by
      cases hu : readSep first t with
      | none => rfl
      | some u => simp [readV4, (readNumber_colon (hs u hu) 3 256).2]
    have h2 : (readSep first t).bind (readNumber 16 4 65536) = none := by
      cases hu : readSep first t with
      | none => rfl
      | some u => simp [(readNumber_colon (hs u hu) 4 65536).1]
    rw [readGroups]
    simp [h1, h2]

theorem readGroups_complete {x : Bytes} {gs : List UInt16} {e : Bool} (h : GroupsText x gs e) (k : Nat) (first : Bool)
    {t : Bytes} (hk : gs.length ≤ k) (ht : Stop t) :
    readGroups k first (lead first gs ++ x ++ t) = (gs, e, t) := by
  induction h generalizing k first with
  | nil => simpa [lead] using readGroups_stop k first ht
  | @last x g hg =>
    obtain ⟨k, rfl⟩ : ∃ n, k = n + 1 := ⟨k - 1, by simp at hk; omega⟩
    have hsep : readSep first (lead first [g] ++ x ++ t) = some (x ++ t) := by
      rw [readSep_eq]; cases first <;> simp [lead]
    rw [readGroups, hsep]
    simp only [Option.bind_some, readV4_not_hex hg.2.2.1 ht.head, ite_self,
      readHex_complete hg (not_hex_colon ht.head), readGroups_stop k false ht, ofNat_toNat16]
  | @v4 x v g h hv h1 h2 =>
    obtain ⟨k, rfl⟩ : ∃ n, k = n + 2 := ⟨k - 2, by simp at hk; omega⟩
    have hsep : readSep first (lead first [g, h] ++ x ++ t) = some (x ++ t) := by
      rw [readSep_eq]; cases first <;> simp [lead]
    have hd : ∀ c, t.head? = some c → ¬ IsDigit c := by
      intro c hc; rw [ht.head c hc]; decide
    rw [readGroups, hsep]
    have e1 : group v.a v.b = g := UInt16.toNat_inj.1 (by rw [group_toNat, h1])
    have e2 : group v.c v.d = h := UInt16.toNat_inj.1 (by rw [group_toNat, h2])
    simp [readV4_complete hv hd, e1, e2]
  | @cons x g y gs e hg hy hne ih =>
    obtain ⟨k, rfl⟩ : ∃ n, k = n + 1 := ⟨k - 1, by simp at hk; omega⟩
    have hsep : readSep first (lead first (g :: gs) ++ (x ++ b!":" ++ y) ++ t) = some (x ++ (b!":" ++ y ++ t)) := by
      rw [readSep_eq]; cases first <;> simp [lead]
    have hc : ∀ c, (b!":" ++ y ++ t).head? = some c → c = 58 := by
      intro c hc; simp at hc; exact hc.symm
    have ih := ih k false (by simpa using hk)
    have hl : lead false gs = b!":" := by simp [lead, hne]
    rw [hl] at ih
    rw [readGroups, hsep]
    simp only [Option.bind_some, readV4_not_hex hg.2.2.1 hc, ite_self, readHex_complete hg (not_hex_colon hc), ih,
      ofNat_toNat16]

theorem groups_flag {x gs} (h : GroupsText x gs true) : 2 ≤ gs.length := by
  generalize he : true = e at h
  induction h with
  | nil => simp at he
  | last _ => simp at he
  | v4 _ _ _ => simp
  | cons _ _ _ ih => have := ih he; simp; omega

theorem parse6_iff {zmin : Nat} {x : Bytes} {gs : List UInt16} (hz : zmin ≤ 1) :
    parse6List zmin x = some gs ↔ V6Text zmin x gs := by
  constructor
  · intro h
    unfold parse6List at h
    obtain ⟨y, h1, h2, h3⟩ := readGroups_sound 8 true x
    generalize readGroups 8 true x = r at h h1 h2 h3
    obtain ⟨head, f, s⟩ := r
    simp only [lead, true_or, if_true, List.nil_append] at h1 h2 h3
    simp only at h
    split at h
    · split at h
      · rename_i h4 h5
        simp at h
        subst h h5
        rw [h1]
        simpa using V6Text.full h2 h4
      · simp at h
    · rename_i h4
      split at h
      · simp at h
      · rename_i hf
        simp at hf
        subst hf
        split at h
        · rename_i _ s'
          obtain ⟨z, k1, k2, k3⟩ := readGroups_sound (8 - (head.length + zmin)) true s'
          generalize readGroups (8 - (head.length + zmin)) true s' = r at h k1 k2 k3
          obtain ⟨tail, f', s''⟩ := r
          simp only [lead, true_or, if_true, List.nil_append] at k1 k2 k3
          split at h
          · rename_i h5
            simp at h
            subst h h5
            rw [h1, k1]
            simp only [headTail, List.append_nil]
            have := V6Text.short (zmin := zmin) h2 k2 (n := 8 - head.length - tail.length) (by omega) (by omega) (by omega)
            simpa using this
          · simp at h
        · simp at h
  · intro h
    cases h with
    | @full _ _ e h1 h2 =>
      have := readGroups_complete h1 8 true (t := []) (by omega) (.inl rfl)
      simp [lead] at this
      simp [parse6List, this, h2]
    | @short x hs y ts e n h1 h2 h3 h4 h5 =>
      have k1 := readGroups_complete h1 8 true (t := b!"::" ++ y) (by omega) (.inr ⟨y, rfl⟩)
      have k2 := readGroups_complete h2 (8 - (hs.length + zmin)) true (t := []) (by omega) (.inl rfl)
      simp only [lead, true_or, if_true, List.nil_append, List.append_nil] at k1 k2
      rw [parse6List, List.append_assoc, k1]
      simp only [List.cons_append, List.nil_append, k2]
      rw [if_neg (by omega)]
      simp only [headTail, if_true, Bool.false_eq_true, if_false]
      rw [show 8 - hs.length - ts.length = n by omega]

theorem v6_length {zmin x gs} (h : V6Text zmin x gs) : gs.length = 8 := by
  cases h with
  | full _ h => exact h
  | short _ _ _ h _ => simp; omega

/-! ### Printing -/

theorem showDigit_hex : ∀ n < 16, HexDigit (showDigit n) ∧ digitValue (showDigit n) = n := by decide +kernel
theorem showDigit_dec : ∀ n < 10, IsDigit (showDigit n) ∧ digitValue (showDigit n) = n := by decide +kernel

theorem showNumber_spec {radix : Nat} {D : UInt8 → Prop} (h2 : 2 ≤ radix)
    (hd : ∀ n < radix, D (showDigit n) ∧ digitValue (showDigit n) = n) (n : Nat) :
    showNumber radix n ≠ [] ∧ (∀ c ∈ showNumber radix n, D c) ∧ numberValue radix (showNumber radix n) = n ∧
      ∀ k, n < radix ^ (k + 1) → (showNumber radix n).length ≤ k + 1 := by
  induction n using Nat.strongRecOn with
  | ind n ih =>
    rw [showNumber]
    split
    · rename_i h
      have hn : n < radix := by omega
      refine ⟨by simp, ?_, ?_, by simp⟩
      · intro c hc
        simp at hc
        exact hc ▸ (hd n hn).1
      · simp [numberValue, (hd n hn).2]
    · rename_i h
      have hn : radix ≤ n := by omega
      have hq : n / radix < n := Nat.div_lt_self (by omega) (by omega)
      have hm : n % radix < radix := Nat.mod_lt _ (by omega)
      obtain ⟨i1, i2, i3, i4⟩ := ih _ hq
      refine ⟨by simp, ?_, ?_, ?_⟩
      · intro c hc
        rcases List.mem_append.1 hc with hc | hc
        · exact i2 c hc
        · simp at hc
          exact hc ▸ (hd _ hm).1
      · rw [numberValue, List.foldl_append, ← numberValue, i3]
        simp only [List.foldl_cons, List.foldl_nil, (hd _ hm).2]
        exact Nat.div_add_mod' n radix
      · intro k hk
        cases k with
        | zero => simp at hk; omega
        | succ k =>
          have := i4 k (by
            rw [Nat.div_lt_iff_lt_mul (by omega)]
            rwa [Nat.pow_succ] at hk)
          simp
          exact this

theorem octet_show (o : UInt8) : OctetText (showNumber 10 o.toNat) o := by
  obtain ⟨h1, h2, h3, h4⟩ := showNumber_spec (by omega) showDigit_dec o.toNat
  have := o.toNat_lt
  exact ⟨h1, h4 2 (by omega), h2, h3⟩

theorem group_show (g : UInt16) : GroupText (showNumber 16 g.toNat) g := by
  obtain ⟨h1, h2, h3, h4⟩ := showNumber_spec (by omega) showDigit_hex g.toNat
  have := g.toNat_lt
  exact ⟨h1, h4 3 (by omega), h2, h3⟩

theorem v4_show (v : V4) : V4Text (show4 v) v :=
  ⟨_, _, _, _, rfl, octet_show _, octet_show _, octet_show _, octet_show _⟩

theorem groups_show (gs : List UInt16) : GroupsText (fmtSubslice gs) gs false := by
  match gs with
  | [] => exact .nil
  | [g] => exact .last (group_show g)
  | g :: g' :: gs => exact .cons (group_show g) (groups_show (g' :: gs)) (by simp)

theorem groups_v4 (g h : UInt16) : GroupsText (show4 (asV4 g h)) [g, h] true := by
  have h1 := g.toNat_lt
  have h2 := h.toNat_lt
  refine .v4 (v4_show _) ?_ ?_ <;>
  · simp only [asV4, Nat.toUInt8, UInt8.toNat_ofNat']
    omega

/-- The loop invariant of `find_zero_slice`: both runs are runs of zeros, the current one ending here. -/
structure Zeros (done : List UInt16) (z : ZeroScan) : Prop where
  longest : z.longestAt + z.longestLen ≤ done.length
  longestZero : ∀ j, z.longestAt ≤ j → j < z.longestAt + z.longestLen → done[j]? = some 0
  cur : z.curLen ≠ 0 → z.curAt + z.curLen = done.length
  curZero : z.curLen ≠ 0 → ∀ j, z.curAt ≤ j → j < done.length → done[j]? = some 0

theorem zeros_loop {gs done : List UInt16} {i : Nat} {z : ZeroScan} (hi : i = done.length) (h : Zeros done z) :
    Zeros (done ++ gs) (findZeroLoop gs i z) := by
  induction gs generalizing done i z with
  | nil => simpa [findZeroLoop] using h
  | cons g gs ih =>
    have old : ∀ j, z.longestAt ≤ j → j < z.longestAt + z.longestLen → (done ++ [g])[j]? = some 0 := by
      intro j h1 h2
      have := h.longest
      rw [List.getElem?_append_left (by omega)]
      exact h.longestZero j h1 h2
    rw [findZeroLoop, show done ++ g :: gs = (done ++ [g]) ++ gs by simp]
    split
    · rename_i hg
      subst hg
      have cur : (if z.curLen = 0 then i else z.curAt) + (z.curLen + 1) = (done ++ [0]).length := by
        split
        · simp; omega
        · rename_i hc
          have := h.cur hc
          simp; omega
      have curZ : ∀ j, (if z.curLen = 0 then i else z.curAt) ≤ j → j < (done ++ [(0 : UInt16)]).length →
          (done ++ [(0 : UInt16)])[j]? = some 0 := by
        intro j h1 h2
        simp at h2
        by_cases hj : j = done.length
        · subst hj; simp
        · rw [List.getElem?_append_left (by omega)]
          split at h1
          · omega
          · rename_i hc
            exact h.curZero hc j h1 (by omega)
      dsimp only
      generalize (if z.curLen = 0 then i else z.curAt) = at_ at cur curZ ⊢
      split
      · exact ih (by simp [hi]) ⟨Nat.le_of_eq cur, fun j h1 h2 => curZ j h1 (by dsimp only at h2; omega), fun _ => cur, fun _ => curZ⟩
      · exact ih (by simp [hi]) ⟨by have := h.longest; simp; omega, old, fun _ => cur, fun _ => curZ⟩
    · exact ih (by simp [hi]) ⟨by have := h.longest; simp; omega, old, by simp, by simp⟩

theorem split_zeros (l : List UInt16) (a n : Nat) (h : a + n ≤ l.length)
    (hz : ∀ j, a ≤ j → j < a + n → l[j]? = some 0) : l = l.take a ++ List.replicate n 0 ++ l.drop (a + n) := by
  apply List.ext_getElem?
  intro j
  have ha : (l.take a).length = a := by simp; omega
  by_cases h1 : j < a
  · rw [List.append_assoc, List.getElem?_append_left (by omega), List.getElem?_take]
    simp [h1]
  · by_cases h2 : j < a + n
    · rw [hz j (by omega) h2, List.getElem?_append_left (by simp; omega), List.getElem?_append_right (by omega),
        List.getElem?_replicate]
      simp; omega
    · rw [List.getElem?_append_right (by simp; omega)]
      simp only [List.length_append, ha, List.length_replicate, List.getElem?_drop]
      congr 1; omega

theorem zeros_slice (l : List UInt16) : (findZeroSlice l).1 + (findZeroSlice l).2 ≤ l.length ∧
    l = l.take (findZeroSlice l).1 ++ List.replicate (findZeroSlice l).2 0 ++
      l.drop ((findZeroSlice l).1 + (findZeroSlice l).2) := by
  have := zeros_loop (gs := l) (done := []) (i := 0) (z := ⟨0, 0, 0, 0⟩) rfl
    ⟨by simp, by simp, by simp, by simp⟩
  simp only [List.nil_append] at this
  exact ⟨this.longest, split_zeros _ _ _ this.longest this.longestZero⟩

theorem v6_show {zmin : Nat} (hz : zmin ≤ 1) (l : List UInt16) (hl : l.length = 8) : V6Text zmin (show6List l) l := by
  unfold show6List
  split
  · exact V6Text.short (n := 8) .nil .nil (by simp) (by simp) (by omega)
  · have : GroupText b!"1" 1 := by
      refine ⟨by simp, by simp, ?_, by decide⟩
      intro c hc
      simp at hc
      subst hc
      decide
    exact V6Text.short (n := 7) .nil (.last this) (by simp) (by simp) (by omega)
  · rename_i g h _ _
    exact V6Text.short (n := 6) .nil (groups_v4 g h) (by simp) (by simp) (by omega)
  · rename_i g h
    have hf : GroupText b!"ffff" 0xffff := by
      refine ⟨by simp, by simp, ?_, by decide⟩
      intro c hc
      simp at hc
      subst hc
      decide
    have := V6Text.short (zmin := zmin) (n := 5) .nil (.cons hf (groups_v4 g h) (by simp)) (by simp) (by simp) (by omega)
    simpa using this
  · obtain ⟨h1, h2⟩ := zeros_slice l
    generalize hzs : findZeroSlice l = z at h1 h2
    obtain ⟨zat, zlen⟩ := z
    simp only at h1 h2
    simp only
    split
    · have := V6Text.short (zmin := zmin) (n := zlen) (groups_show (l.take zat)) (groups_show (l.drop (zat + zlen)))
        (by simp; omega) (by simp; omega) (by omega)
      rw [← h2] at this
      exact this
    · exact .full (groups_show l) hl

/-! ### The laws -/

theorem octet_chars {x o} (h : OctetText x o) : ∀ c ∈ x, IsDigit c ∨ c = 46 := fun c hc => .inl (h.2.2.1 c hc)

theorem v4_chars {x v} (h : V4Text x v) : ∀ c ∈ x, IsDigit c ∨ c = 46 := by
  obtain ⟨a, b, c, d, rfl, ha, hb, hc, hd⟩ := h
  intro y hy
  simp only [List.mem_append, List.mem_singleton] at hy
  rcases hy with (((((hy | hy) | hy) | hy) | hy) | hy) | hy
  · exact octet_chars ha y hy
  · exact .inr hy
  · exact octet_chars hb y hy
  · exact .inr hy
  · exact octet_chars hc y hy
  · exact .inr hy
  · exact octet_chars hd y hy

/-- Hexadecimal digits, colons, dots. -/
def Char6 (c : UInt8) : Prop := IsDigit c ∨ (65 ≤ c ∧ c ≤ 70) ∨ (97 ≤ c ∧ c ≤ 102) ∨ c = 58 ∨ c = 46

theorem groups_chars {x gs e} (h : GroupsText x gs e) : ∀ c ∈ x, Char6 c := by
  have hg : ∀ {x g}, GroupText x g → ∀ c ∈ x, Char6 c := by
    intro x g h c hc
    rcases h.2.2.1 c hc with h | h | h
    · exact .inl h
    · exact .inr (.inl h)
    · exact .inr (.inr (.inl h))
  induction h with
  | nil => simp
  | last h => exact hg h
  | v4 h _ _ =>
    intro c hc
    rcases v4_chars h c hc with h | h
    · exact .inl h
    · exact .inr (.inr (.inr (.inr h)))
  | cons h _ _ ih =>
    intro c hc
    simp only [List.mem_append, List.mem_singleton] at hc
    rcases hc with (hc | hc) | hc
    · exact hg h c hc
    · exact .inr (.inr (.inr (.inl hc)))
    · exact ih c hc

theorem v6_chars {zmin x gs} (h : V6Text zmin x gs) : ∀ c ∈ x, Char6 c := by
  cases h with
  | full h _ => exact groups_chars h
  | short h1 h2 _ _ _ =>
    intro c hc
    simp only [List.mem_append, List.mem_cons, List.not_mem_nil, or_false] at hc
    rcases hc with (hc | hc) | hc
    · exact groups_chars h1 c hc
    · exact .inr (.inr (.inr (.inl (by simpa using hc))))
    · exact groups_chars h2 c hc

theorem parse6_some {zmin : Nat} (hz : zmin ≤ 1) {x : Bytes} {a : V6} : parse6 zmin x = some a ↔ V6Text zmin x a.1 := by
  unfold parse6
  cases h : parse6List zmin x with
  | none =>
    simp only [reduceCtorEq, false_iff]
    intro hv
    rw [(parse6_iff hz).2 hv] at h
    simp at h
  | some l =>
    have hl := (parse6_iff hz).1 h
    simp only [dif_pos (v6_length hl), Option.some.injEq]
    constructor
    · rintro rfl; exact hl
    · intro hv
      rw [(parse6_iff hz).2 hv] at h
      apply Subtype.ext
      simpa using h.symm

/-- The addresses of the standard library obey the laws. -/
theorem stdIp_laws {zmin : Nat} (hz : zmin ≤ 1) : IpLaws (stdIp zmin) where
  parse_show4 a := parse4_iff.2 (v4_show a)
  parse_show6 a := (parse6_some hz).2 (v6_show hz a.1 a.2)
  chars4 _ _ h := v4_chars (parse4_iff.1 h)
  chars6 _ _ h := v6_chars ((parse6_some hz).1 h)

end Verif.Ip
