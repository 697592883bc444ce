import Verif.Model.Streams
/-
Observations of a byte source: the events still to come and the bytes they carry.
-/
namespace Verif

/-- The bytes carried by a sequence of source events. -/
def evBytes : List (SrcEv Bytes) → Bytes
  | [] => []
  | .pkt a :: r => a ++ evBytes r
  | .pending :: r => evBytes r

/-- Everything a reader of `p` can still observe, the pushed-back item first. -/
def Prep.evs {α : Type} (p : Prep α) : List (SrcEv α) :=
  match p.pre with
  | some a => .pkt a :: p.src
  | none => p.src

/-- The bytes still to be read from `p`. -/
def Prep.bytes (p : Prep Bytes) : Bytes := evBytes p.evs

@[simp] theorem evBytes_append (a b : List (SrcEv Bytes)) :
    evBytes (a ++ b) = evBytes a ++ evBytes b := by
  induction a with
  | nil => rfl
  | cons e r ih => cases e <;> simp [evBytes, ih]

@[simp] theorem evBytes_nil : evBytes [] = [] := rfl
@[simp] theorem evBytes_pkt (a r) : evBytes (.pkt a :: r) = a ++ evBytes r := rfl
@[simp] theorem evBytes_pending (r) : evBytes (.pending :: r) = evBytes r := rfl

namespace Prep
variable {α : Type}

/-- One poll takes exactly the first event. -/
theorem pollNext_cases (p : Prep α) :
    (∃ p', p.pollNext = (.pending, p') ∧ p.evs = .pending :: p'.evs ∧ p'.pre = none ∧ p.pre = none) ∨
    (∃ p', p.pollNext = (.ready none, p') ∧ p' = { p with ends := p.ends + 1 } ∧ p.evs = [] ∧ p.pre = none) ∨
    (∃ a p', p.pollNext = (.ready (some a), p') ∧ p.evs = .pkt a :: p'.evs ∧ p'.pre = none) := by
  obtain ⟨src, pre⟩ := p
  cases pre with
  | some a => right; right; exact ⟨a, _, rfl, rfl, rfl⟩
  | none =>
    match src with
    | [] => right; left; exact ⟨_, rfl, rfl, rfl, rfl⟩
    | .pending :: r => left; exact ⟨_, rfl, rfl, rfl, rfl⟩
    | .pkt a :: r => right; right; exact ⟨a, _, rfl, rfl, rfl⟩

theorem pollNext_pending {p p' : Prep α} (h : p.pollNext = (.pending, p')) :
    p.evs = .pending :: p'.evs ∧ p'.pre = none := by
  rcases p.pollNext_cases with ⟨q, h1, h2, h3, _⟩ | ⟨q, h1, _⟩ | ⟨a, q, h1, _⟩ <;> rw [h] at h1 <;> simp at h1
  subst h1; exact ⟨h2, h3⟩

theorem pollNext_none {p p' : Prep α} (h : p.pollNext = (.ready none, p')) :
    p' = { p with ends := p.ends + 1 } ∧ p.evs = [] ∧ p.pre = none := by
  rcases p.pollNext_cases with ⟨q, h1, _⟩ | ⟨q, h1, h2, h3, h4⟩ | ⟨a, q, h1, _⟩ <;> rw [h] at h1 <;> simp at h1
  subst h1; exact ⟨h2, h3, h4⟩

theorem pollNext_some {p p' : Prep α} {a : α} (h : p.pollNext = (.ready (some a), p')) :
    p.evs = .pkt a :: p'.evs ∧ p'.pre = none := by
  rcases p.pollNext_cases with ⟨q, h1, _⟩ | ⟨q, h1, _⟩ | ⟨a, q, h1, h2, h3⟩ <;> rw [h] at h1 <;> simp at h1
  obtain ⟨rfl, rfl⟩ := h1; exact ⟨h2, h3⟩

theorem pollNext_ends_pending {p p' : Prep α} (h : p.pollNext = (.pending, p')) : p'.ends = p.ends := by
  obtain ⟨src, pre, n⟩ := p
  cases pre <;> rcases src with _ | ⟨_ | _, r⟩ <;> simp [pollNext] at h <;> subst h <;> rfl

theorem pollNext_ends_some {p p' : Prep α} {a : α} (h : p.pollNext = (.ready (some a), p')) : p'.ends = p.ends := by
  obtain ⟨src, pre, n⟩ := p
  cases pre <;> rcases src with _ | ⟨_ | _, r⟩ <;> simp [pollNext] at h <;> obtain ⟨_, rfl⟩ := h <;> rfl

end Prep

/-- `Prep.bytes` is what reading to the end really returns. -/
theorem Prep.items_flatten (p : Prep Bytes) : p.items.flatten = p.bytes := by
  fun_induction Prep.items p with
  | case1 p p' h => simp [Prep.bytes, (Prep.pollNext_none h).2.1]
  | case2 p a p' h ih => simp [Prep.bytes, (Prep.pollNext_some h).1, ih]
  | case3 p p' h ih => simp [Prep.bytes, (Prep.pollNext_pending h).1, ih]

end Verif
