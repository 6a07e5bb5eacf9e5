import Verif.Coord.Tensor

/-!
# Specification of tensors in new coordinates (C102)
-/

set_option autoImplicit false

namespace Verif.Coord

open Verif

/-- The factor for one index of a tensor in new coordinates: `A` for an upper index, `B` for a lower one. -/
def factor {N : ℕ} (A B : Matrix (Fin N) (Fin N) ℝ) (upper : Bool) (new old : Fin N) : ℝ := if upper then A new old else B old new

/-- `u` is `t` in the coordinates given by `A`, with inverse `B`. -/
def IsFrom {r N : ℕ} (t : Tensor r N) (A B : Matrix (Fin N) (Fin N) ℝ) (u : Tensor r N) : Prop :=
  u.isContravar = t.isContravar ∧ ∀ m, u.coeff m = ∑ k, (∏ j, factor A B (t.isContravar j) (m j) (k j)) * t.coeff k

/-- The index tuple that has `s` at the places `i1` and `i2` and the indices `a`, in order, at the others. -/
def Spliced {r N : ℕ} (i1 i2 : Fin (r + 2)) (s : Fin N) (a : Fin r → Fin N) (m : Fin (r + 2) → Fin N) : Prop :=
  m i1 = s ∧ m i2 = s ∧ ∃ e : Fin r ↪o Fin (r + 2), (∀ k, e k ≠ i1 ∧ e k ≠ i2) ∧ ∀ k, m (e k) = a k

end Verif.Coord
