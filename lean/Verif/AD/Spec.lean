import Verif.AD.Model
import Mathlib.Analysis.SpecialFunctions.Log.Base

/-!
# What the functions written with duals compute

The mathematical function an expression denotes, with Mathlib's functions, and the points at which the expression is smooth:
the usual domain of every operation in it, without the points at which it has no derivative.
-/

set_option autoImplicit false

namespace Verif.AD

open Verif

/-- The function an expression denotes. -/
noncomputable def Expr.fn {n : ℕ} : Expr n → (Fin n → ℝ) → ℝ
  | .var i, x => x i
  | .const c, _ => c
  | .add a b, x => a.fn x + b.fn x
  | .sub a b, x => a.fn x - b.fn x
  | .mul a b, x => a.fn x * b.fn x
  | .div a b, x => a.fn x / b.fn x
  | .neg a, x => -a.fn x
  | .sqrt a, x => Real.sqrt (a.fn x)
  | .pow a b, x => a.fn x ^ b.fn x
  | .powConst a c, x => a.fn x ^ c
  | .constPow c a, x => c ^ a.fn x
  | .exp a, x => Real.exp (a.fn x)
  | .log a, x => Real.log (a.fn x)
  | .log10 a, x => Real.logb 10 (a.fn x)
  | .sin a, x => Real.sin (a.fn x)
  | .cos a, x => Real.cos (a.fn x)
  | .tan a, x => Real.tan (a.fn x)
  | .asin a, x => Real.arcsin (a.fn x)
  | .acos a, x => Real.arccos (a.fn x)
  | .atan a, x => Real.arctan (a.fn x)
  | .sinh a, x => Real.sinh (a.fn x)
  | .cosh a, x => Real.cosh (a.fn x)
  | .tanh a, x => Real.tanh (a.fn x)
  | .abs a, x => |a.fn x|
  | .floor a, x => (⌊a.fn x⌋ : ℝ)
  | .ceil a, x => (⌈a.fn x⌉ : ℝ)
  | .atan2 a b, x => Complex.arg ⟨b.fn x, a.fn x⟩
  | .fma a b c, x => a.fn x * b.fn x + c.fn x
  | .branch cmp a b yes no, x =>
    match cmp with
    | .eq => open Classical in if a.fn x = b.fn x then yes.fn x else no.fn x
    | .ne => open Classical in if a.fn x ≠ b.fn x then yes.fn x else no.fn x
    | .lt => open Classical in if a.fn x < b.fn x then yes.fn x else no.fn x
    | .le => open Classical in if a.fn x ≤ b.fn x then yes.fn x else no.fn x
    | .gt => open Classical in if a.fn x > b.fn x then yes.fn x else no.fn x
    | .ge => open Classical in if a.fn x ≥ b.fn x then yes.fn x else no.fn x

/-- Where `v ^ c` is a smooth function of `v`, for the power of numbers. -/
def PowSmooth (v c : ℝ) : Prop := 0 < v ∨ ∃ k : ℤ, (k : ℝ) = c ∧ (v ≠ 0 ∨ 1 ≤ c)

/-- Whether an expression is an integer power of a possibly negative number, written with a constant exponent. -/
def PowArgs {n : ℕ} (v : ℝ) : Expr n → Prop
  | .const c => PowSmooth v c
  | _ => 0 < v

/-- The points where every operation in the expression is smooth.  An arc sine or arc cosine must stay clear of the ends by
more than rounding: `1 - v²` is at least `tiny`, the smallest positive normal number.  At a comparison the two sides differ,
and only the branch taken matters. -/
def Expr.Smooth {n : ℕ} (tiny : ℝ) : Expr n → (Fin n → ℝ) → Prop
  | .var _, _ => True
  | .const _, _ => True
  | .add a b, x => a.Smooth tiny x ∧ b.Smooth tiny x
  | .sub a b, x => a.Smooth tiny x ∧ b.Smooth tiny x
  | .mul a b, x => a.Smooth tiny x ∧ b.Smooth tiny x
  | .div a b, x => a.Smooth tiny x ∧ b.Smooth tiny x ∧ b.fn x ≠ 0
  | .neg a, x => a.Smooth tiny x
  | .sqrt a, x => a.Smooth tiny x ∧ 0 < a.fn x
  | .pow a b, x => a.Smooth tiny x ∧ b.Smooth tiny x ∧ PowArgs (a.fn x) b
  | .powConst a c, x => a.Smooth tiny x ∧ PowSmooth (a.fn x) c
  | .constPow c a, x => a.Smooth tiny x ∧ 0 < c
  | .exp a, x => a.Smooth tiny x
  | .log a, x => a.Smooth tiny x ∧ 0 < a.fn x
  | .log10 a, x => a.Smooth tiny x ∧ 0 < a.fn x
  | .sin a, x => a.Smooth tiny x
  | .cos a, x => a.Smooth tiny x
  | .tan a, x => a.Smooth tiny x ∧ Real.cos (a.fn x) ≠ 0
  | .asin a, x => a.Smooth tiny x ∧ tiny ≤ 1 - a.fn x ^ 2
  | .acos a, x => a.Smooth tiny x ∧ tiny ≤ 1 - a.fn x ^ 2
  | .atan a, x => a.Smooth tiny x
  | .sinh a, x => a.Smooth tiny x
  | .cosh a, x => a.Smooth tiny x
  | .tanh a, x => a.Smooth tiny x
  | .abs a, x => a.Smooth tiny x ∧ a.fn x ≠ 0
  | .floor a, x => a.Smooth tiny x ∧ ∀ k : ℤ, (k : ℝ) ≠ a.fn x
  | .ceil a, x => a.Smooth tiny x ∧ ∀ k : ℤ, (k : ℝ) ≠ a.fn x
  | .atan2 a b, x => a.Smooth tiny x ∧ b.Smooth tiny x ∧ (0 < b.fn x ∨ a.fn x ≠ 0)
  | .fma a b c, x => a.Smooth tiny x ∧ b.Smooth tiny x ∧ c.Smooth tiny x
  | .branch cmp a b yes no, x => a.Smooth tiny x ∧ b.Smooth tiny x ∧ a.fn x ≠ b.fn x ∧
    (cmp.holds (a.fn x) (b.fn x) = true → yes.Smooth tiny x) ∧ (cmp.holds (a.fn x) (b.fn x) = false → no.Smooth tiny x)

end Verif.AD
