import Mathlib.Analysis.SpecialFunctions.Integrals.Basic
import Mathlib.Data.Real.Basic
import Mathlib.Algebra.BigOperators.Group.List.Basic

/-!
# Cutting a region into cells

The history of an adaptive integration is the list of the cells it looked at, in order, each with its depth and
whether it was cut.
-/

set_option autoImplicit false

namespace Verif.Integ.Cub.Spec

variable {C : Type}

/-- A cell that was looked at. -/
structure Visit (C : Type) where
  cell : C
  depth : ℕ
  cut : Bool

/-- The visits go through the cells waiting, in order; a cell that is cut puts its parts, one level deeper, in
front of the cells waiting; nothing is waiting at the end. -/
def Walk (parts : C → List C) : List (C × ℕ) → List (Visit C) → Prop
  | [], [] => True
  | (c, d) :: rest, v :: vs =>
    v.cell = c ∧ v.depth = d ∧ Walk parts (if v.cut then (parts c).map (·, d + 1) ++ rest else rest) vs
  | _, _ => False

/-- The cells that were kept. -/
def kept (vs : List (Visit C)) : List C := (vs.filter fun v => !v.cut).map Visit.cell

/-- The number of cells that were cut. -/
def cuts (vs : List (Visit C)) : ℕ := (vs.filter fun v => v.cut).length

/-- The greatest depth of a visit. -/
def deepest (vs : List (Visit C)) : ℕ := (vs.map Visit.depth).foldr max 0

end Verif.Integ.Cub.Spec
