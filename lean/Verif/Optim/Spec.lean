import Verif.Optim.Model
import Mathlib.Topology.Order.LocalExtr
import Mathlib.Topology.Instances.Real.Lemmas

/-! # Specification of one-dimensional minimisation -/

set_option autoImplicit false

namespace Verif.Optim

open Set

/-- The middle point lies strictly between the outer ones and the function is not larger there; the values are those of the function. -/
structure IsBracket (f : ℝ → ℝ) (br : Bracket) : Prop where
  fa : br.fa = f br.ax
  fb : br.fb = f br.bx
  fc : br.fc = f br.cx
  left : f br.bx ≤ f br.ax
  right : f br.bx ≤ f br.cx
  between : (br.ax < br.bx ∧ br.bx < br.cx) ∨ (br.cx < br.bx ∧ br.bx < br.ax)

/-- The lower end of a bracket. -/
noncomputable def lo (br : Bracket) : ℝ := min br.ax br.cx

/-- The upper end of a bracket. -/
noncomputable def hi (br : Bracket) : ℝ := max br.ax br.cx

/-- The function falls up to `m` and rises from there on. -/
structure Unimodal (f : ℝ → ℝ) (l h m : ℝ) : Prop where
  lower : l ≤ m
  upper : m ≤ h
  falls : StrictAntiOn f (Icc l m)
  rises : StrictMonoOn f (Icc m h)

/-- The function falls up to `m` and rises from there on, and the second function has the signs of its slope. -/
structure Sloped (f df : ℝ → ℝ) (m : ℝ) : Prop where
  falls : StrictAntiOn f (Iic m)
  rises : StrictMonoOn f (Ici m)
  neg : ∀ x < m, df x < 0
  pos : ∀ x, m < x → 0 < df x

/-- The answer is a point of the bracket, with the value of the function there, which is not larger than at the middle of the bracket; and
it lies strictly between two points of the bracket, not more than `ε` away, where the function is not smaller. -/
structure Located (f : ℝ → ℝ) (br : Bracket) (ε : ℝ) (r : Result) : Prop where
  value : r.fmin = f r.xmin
  better : f r.xmin ≤ f br.bx
  near : ∃ p q, lo br ≤ p ∧ q ≤ hi br ∧ p < r.xmin ∧ r.xmin < q ∧ r.xmin - p ≤ ε ∧ q - r.xmin ≤ ε ∧ f r.xmin ≤ f p ∧ f r.xmin ≤ f q

end Verif.Optim
