import Mathlib.Data.List.Perm.Basic
import Mathlib.Order.Defs.LinearOrder

/-! # Model of `std::priority_queue`: a bag from which a least element is taken -/

set_option autoImplicit false

namespace Verif.Graph

/-- `top()` followed by `pop()` of a `std::priority_queue` ordered by `std::greater`
(`mml/algorithms/GraphAlgorithms.h:229`, `287`, `776`): a least element and the remaining bag.  The heap
layout is not modelled; equal entries are interchangeable, so which of several equal least entries is
taken does not matter. -/
def popMin {α : Type} (le : α → α → Bool) : List α → Option (α × List α)
  | [] => none
  | x :: xs =>
    match popMin le xs with
    | none => some (x, [])
    | some (m, rest) => if le x m then some (x, xs) else some (m, x :: rest)

/-- Lexicographic order of `std::pair<Real, size_t>`, used by `std::greater<PQEntry>`. -/
def pairLe {K : Type} [LinearOrder K] (a b : K × Nat) : Bool :=
  decide (a.1 < b.1) || (decide (a.1 = b.1) && decide (a.2 ≤ b.2))

theorem popMin_none {α : Type} (le : α → α → Bool) (l : List α) : popMin le l = none ↔ l = [] := by
  cases l with
  | nil => simp [popMin]
  | cons x xs =>
    simp only [popMin, reduceCtorEq, iff_false]
    split
    · simp
    · split <;> simp

theorem popMin_perm {α : Type} (le : α → α → Bool) (l : List α) {m : α} {rest : List α}
    (h : popMin le l = some (m, rest)) : (m :: rest).Perm l := by
  induction l generalizing m rest with
  | nil => simp [popMin] at h
  | cons x xs ih =>
    simp only [popMin] at h
    split at h
    · next hn =>
      rw [popMin_none] at hn
      subst hn
      cases h; exact List.Perm.refl _
    · next m' rest' hm =>
      split at h
      · cases h; exact List.Perm.refl _
      · cases h
        exact (List.Perm.swap _ _ _).trans ((ih hm).cons x)

theorem popMin_le {α : Type} (le : α → α → Bool) (htot : ∀ a b, le a b = true ∨ le b a = true)
    (htrans : ∀ a b c, le a b = true → le b c = true → le a c = true) (l : List α) {m : α} {rest : List α}
    (h : popMin le l = some (m, rest)) : ∀ x ∈ l, le m x = true := by
  have hrefl : ∀ a, le a a = true := fun a => (htot a a).elim id id
  induction l generalizing m rest with
  | nil => simp [popMin] at h
  | cons x xs ih =>
    simp only [popMin] at h
    split at h
    · next hn =>
      rw [popMin_none] at hn
      subst hn
      cases h
      intro y hy
      simp at hy; subst hy; exact hrefl _
    · next m' rest' hm =>
      have ih := ih hm
      split at h
      · next hle =>
        cases h
        intro y hy
        rcases List.mem_cons.1 hy with rfl | hy
        · exact hrefl _
        · exact htrans _ _ _ hle (ih y hy)
      · next hle =>
        cases h
        intro y hy
        rcases List.mem_cons.1 hy with rfl | hy
        · rcases htot m y with h | h
          · exact h
          · exact absurd h hle
        · exact ih y hy

theorem pairLe_fst {K : Type} [LinearOrder K] {a b : K × Nat} (h : pairLe a b = true) : a.1 ≤ b.1 := by
  simp only [pairLe, Bool.or_eq_true, Bool.and_eq_true, decide_eq_true_eq] at h
  rcases h with h | h
  · exact le_of_lt h
  · exact le_of_eq h.1

theorem pairLe_total {K : Type} [LinearOrder K] (a b : K × Nat) : pairLe a b = true ∨ pairLe b a = true := by
  simp only [pairLe, Bool.or_eq_true, Bool.and_eq_true, decide_eq_true_eq]
  rcases lt_trichotomy a.1 b.1 with h | h | h
  · exact Or.inl (Or.inl h)
  · rcases Nat.le_total a.2 b.2 with h2 | h2
    · exact Or.inl (Or.inr ⟨h, h2⟩)
    · exact Or.inr (Or.inr ⟨h.symm, h2⟩)
  · exact Or.inr (Or.inl h)

theorem pairLe_trans {K : Type} [LinearOrder K] (a b c : K × Nat) (h1 : pairLe a b = true)
    (h2 : pairLe b c = true) : pairLe a c = true := by
  simp only [pairLe, Bool.or_eq_true, Bool.and_eq_true, decide_eq_true_eq] at *
  rcases h1 with h1 | h1 <;> rcases h2 with h2 | h2
  · exact Or.inl (lt_trans h1 h2)
  · exact Or.inl (h2.1 ▸ h1)
  · exact Or.inl (h1.1 ▸ h2)
  · exact Or.inr ⟨h1.1.trans h2.1, Nat.le_trans h1.2 h2.2⟩

end Verif.Graph
