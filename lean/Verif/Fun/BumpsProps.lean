import Mathlib.Analysis.SpecialFunctions.ExpDeriv
import Mathlib.Analysis.SpecialFunctions.Sqrt
import Mathlib.Analysis.Calculus.Deriv.Add
import Mathlib.Analysis.SpecialFunctions.Gaussian.GaussianIntegral
import Mathlib.MeasureTheory.Integral.IntegralEqImproper
import Mathlib.MeasureTheory.Group.Integral
import Verif.Fun.Bumps
import Verif.Fun.FieldsProps

/-!
C157: the documented properties of the scalar bump fields.
-/

set_option autoImplicit false

namespace Verif.Bumps

open Verif.Fields

/-! ## Specification -/

/-- The square of the distance of two points. -/
def distSq (c0 c1 c2 x y z : ℝ) : ℝ := (x - c0) ^ 2 + (y - c1) ^ 2 + (z - c2) ^ 2

/-- The function has the Laplacian `L` at the point: it has a gradient everywhere, and `L` is the sum of the second derivatives. -/
def HasLaplacian (f : ℝ → ℝ → ℝ → ℝ) (L x y z : ℝ) : Prop :=
  ∃ G : ℝ → ℝ → ℝ → ℝ × ℝ × ℝ, (∀ x y z, IsGrad f (G x y z) x y z) ∧
    ∃ u v w, HasDerivAt (fun s => (G s y z).1) u x ∧ HasDerivAt (fun s => (G x s z).2.1) v y ∧
      HasDerivAt (fun s => (G x y s).2.2) w z ∧ L = u + v + w

/-- The Gaussian of width `t` around `c`. -/
noncomputable def gaussian (t c0 c1 c2 x y z : ℝ) : ℝ := Real.exp (-distSq c0 c1 c2 x y z / (2 * t ^ 2))

/-! ## Gaussian bump -/

theorem gaussianBump_eq (A sigma c0 c1 c2 x y z : ℝ) :
    gaussianBump A sigma c0 c1 c2 x y z = A * Real.exp (-distSq c0 c1 c2 x y z / sigma ^ 2) := by
  simp only [gaussianBump, distSq, pow_two]

theorem distSq_nonneg (c0 c1 c2 x y z : ℝ) : 0 ≤ distSq c0 c1 c2 x y z := by unfold distSq; positivity

theorem distSq_eq_zero {c0 c1 c2 x y z : ℝ} (h : distSq c0 c1 c2 x y z = 0) : x = c0 ∧ y = c1 ∧ z = c2 := by
  unfold distSq at h
  have h0 := sq_nonneg (x - c0)
  have h1 := sq_nonneg (y - c1)
  have h2 := sq_nonneg (z - c2)
  have a : (x - c0) ^ 2 = 0 := by linarith
  have b : (y - c1) ^ 2 = 0 := by linarith
  have c : (z - c2) ^ 2 = 0 := by linarith
  exact ⟨sub_eq_zero.1 (pow_eq_zero_iff (two_ne_zero) |>.1 a), sub_eq_zero.1 (pow_eq_zero_iff (two_ne_zero) |>.1 b),
    sub_eq_zero.1 (pow_eq_zero_iff (two_ne_zero) |>.1 c)⟩

theorem exp_deriv (A q x B : ℝ) :
    HasDerivAt (fun s => A * Real.exp (-(s * s + B) / q)) (-(2 * x) / q * (A * Real.exp (-(x * x + B) / q))) x :=
  hda_congr (HasDerivAt.const_mul A (HasDerivAt.exp (HasDerivAt.div_const (HasDerivAt.neg (hda_sq x B)) q)))
    (fun s => by simp) (by simp only [Pi.neg_apply]; ring)

theorem exp_grad (A q c0 c1 c2 x y z : ℝ) :
    IsGrad (fun x y z => A * Real.exp (-distSq c0 c1 c2 x y z / q))
      (-(2 * (x - c0)) / q * (A * Real.exp (-distSq c0 c1 c2 x y z / q)),
        -(2 * (y - c1)) / q * (A * Real.exp (-distSq c0 c1 c2 x y z / q)),
        -(2 * (z - c2)) / q * (A * Real.exp (-distSq c0 c1 c2 x y z / q))) x y z := by
  have ex : ∀ s, distSq c0 c1 c2 s y z = (s - c0) * (s - c0) + ((y - c1) ^ 2 + (z - c2) ^ 2) := fun s => by unfold distSq; ring
  have ey : ∀ s, distSq c0 c1 c2 x s z = (s - c1) * (s - c1) + ((x - c0) ^ 2 + (z - c2) ^ 2) := fun s => by unfold distSq; ring
  have ez : ∀ s, distSq c0 c1 c2 x y s = (s - c2) * (s - c2) + ((x - c0) ^ 2 + (y - c1) ^ 2) := fun s => by unfold distSq; ring
  exact ⟨hda_congr (hda_shift (exp_deriv A q (x - c0) ((y - c1) ^ 2 + (z - c2) ^ 2))) (fun s => by simp only [ex]) (by simp only [ex]),
    hda_congr (hda_shift (exp_deriv A q (y - c1) ((x - c0) ^ 2 + (z - c2) ^ 2))) (fun s => by simp only [ey]) (by simp only [ey]),
    hda_congr (hda_shift (exp_deriv A q (z - c2) ((x - c0) ^ 2 + (y - c1) ^ 2))) (fun s => by simp only [ez]) (by simp only [ez])⟩

/-- **C157.** The Gaussian bump has the amplitude as its value at the centre, takes for a positive amplitude a smaller, positive
value at every other point, has the gradient `-2 (r - c) / σ² Φ`, and is small far away from the centre. -/
theorem gaussianBump_spec (A sigma c0 c1 c2 : ℝ) (hs : sigma ≠ 0) :
    gaussianBump A sigma c0 c1 c2 c0 c1 c2 = A ∧
    (0 < A → ∀ x y z, 0 < gaussianBump A sigma c0 c1 c2 x y z ∧
      ((x, y, z) ≠ (c0, c1, c2) → gaussianBump A sigma c0 c1 c2 x y z < A)) ∧
    (∀ x y z, IsGrad (gaussianBump A sigma c0 c1 c2)
      (-2 * (x - c0) / sigma ^ 2 * gaussianBump A sigma c0 c1 c2 x y z,
        -2 * (y - c1) / sigma ^ 2 * gaussianBump A sigma c0 c1 c2 x y z,
        -2 * (z - c2) / sigma ^ 2 * gaussianBump A sigma c0 c1 c2 x y z) x y z) ∧
    (∀ ε > 0, ∃ R, ∀ x y z, R < distSq c0 c1 c2 x y z → |gaussianBump A sigma c0 c1 c2 x y z| < ε) := by
  have hq : 0 < sigma ^ 2 := by positivity
  refine ⟨?_, fun hA x y z => ⟨?_, fun hne => ?_⟩, fun x y z => ?_, fun ε hε => ?_⟩
  · simp [gaussianBump_eq, distSq]
  · rw [gaussianBump_eq]; positivity
  · rw [gaussianBump_eq]
    have hd : 0 < distSq c0 c1 c2 x y z := by
      refine lt_of_le_of_ne (distSq_nonneg _ _ _ _ _ _) fun h => hne ?_
      obtain ⟨a, b, c⟩ := distSq_eq_zero h.symm
      rw [a, b, c]
    have : Real.exp (-distSq c0 c1 c2 x y z / sigma ^ 2) < 1 := by
      rw [Real.exp_lt_one_iff]
      exact div_neg_of_neg_of_pos (by linarith) hq
    nlinarith
  · have h := exp_grad A (sigma ^ 2) c0 c1 c2 x y z
    simp only [← gaussianBump_eq] at h
    simpa only [neg_mul] using h
  · refine ⟨sigma ^ 2 * (|A| / ε), fun x y z h => ?_⟩
    rw [gaussianBump_eq, abs_mul, abs_of_pos (Real.exp_pos _), neg_div, Real.exp_neg]
    set t := distSq c0 c1 c2 x y z / sigma ^ 2 with ht
    have h1 : |A| / ε < t := by
      rw [ht, lt_div_iff₀ hq]; linarith
    have h2 : |A| < t * ε := (div_lt_iff₀ hε).1 h1
    have h3 : t < Real.exp t := by linarith [Real.add_one_le_exp t]
    rw [← div_eq_mul_inv, div_lt_iff₀ (Real.exp_pos t)]
    nlinarith

/-! ## Mexican hat -/

theorem mexicanHat_eq (A sigma c0 c1 c2 x y z : ℝ) : mexicanHat A sigma c0 c1 c2 x y z =
    A * (1 - distSq c0 c1 c2 x y z / sigma ^ 2) * Real.exp (-distSq c0 c1 c2 x y z / (2 * sigma ^ 2)) := by
  simp only [mexicanHat, distSq, pow_two]

/-- **C157 (partial).** For a positive amplitude the hat has the amplitude as its value at the centre, is positive inside the
sphere of radius σ, zero on it and negative outside.  Missing, because the code violates it: that it is the Laplacian of a
Gaussian (`mexicanHat_not_laplacian`) and that its mean is 0 (`mexicanHat_mass`). -/
theorem mexicanHat_partial (A sigma c0 c1 c2 : ℝ) (hA : 0 < A) (hs : sigma ≠ 0) :
    mexicanHat A sigma c0 c1 c2 c0 c1 c2 = A ∧
    ∀ x y z, (distSq c0 c1 c2 x y z < sigma ^ 2 → 0 < mexicanHat A sigma c0 c1 c2 x y z) ∧
      (distSq c0 c1 c2 x y z = sigma ^ 2 → mexicanHat A sigma c0 c1 c2 x y z = 0) ∧
      (sigma ^ 2 < distSq c0 c1 c2 x y z → mexicanHat A sigma c0 c1 c2 x y z < 0) := by
  have hq : 0 < sigma ^ 2 := by positivity
  refine ⟨by simp [mexicanHat_eq, distSq], fun x y z => ⟨fun h => ?_, fun h => ?_, fun h => ?_⟩⟩
  · rw [mexicanHat_eq]
    have : distSq c0 c1 c2 x y z / sigma ^ 2 < 1 := (div_lt_one hq).2 h
    exact mul_pos (mul_pos hA (by linarith)) (Real.exp_pos _)
  · rw [mexicanHat_eq, h, div_self hq.ne']; ring
  · rw [mexicanHat_eq]
    have : 1 < distSq c0 c1 c2 x y z / sigma ^ 2 := (one_lt_div hq).2 h
    exact mul_neg_of_neg_of_pos (mul_neg_of_pos_of_neg hA (by linarith)) (Real.exp_pos _)

theorem second_deriv {g : ℝ → ℝ} {x c q g' : ℝ} (hg : HasDerivAt g g' x) :
    HasDerivAt (fun s => -(2 * (s - c)) / q * g s) (-2 / q * g x + -(2 * (x - c)) / q * g') x := by
  have h1 : HasDerivAt (fun s : ℝ => -(2 * (s - c)) / q) (-2 / q) x :=
    hda_congr (lin (-2 / q) (2 * c / q) x) (fun s => by ring) rfl
  exact hda_congr (HasDerivAt.mul h1 hg) (fun _ => rfl) rfl

/-- The Laplacian of the Gaussian in three dimensions. -/
theorem gaussian_laplacian (t c0 c1 c2 x y z : ℝ) (ht : t ≠ 0) :
    HasLaplacian (gaussian t c0 c1 c2) ((distSq c0 c1 c2 x y z / t ^ 2 - 3) / t ^ 2 * gaussian t c0 c1 c2 x y z) x y z := by
  have hg : ∀ x y z, IsGrad (gaussian t c0 c1 c2) (-(2 * (x - c0)) / (2 * t ^ 2) * gaussian t c0 c1 c2 x y z,
      -(2 * (y - c1)) / (2 * t ^ 2) * gaussian t c0 c1 c2 x y z,
      -(2 * (z - c2)) / (2 * t ^ 2) * gaussian t c0 c1 c2 x y z) x y z := fun x y z => by
    have h := exp_grad 1 (2 * t ^ 2) c0 c1 c2 x y z
    simp only [one_mul] at h
    exact h
  refine ⟨_, hg, _, _, _, second_deriv (hg x y z).1, second_deriv (hg x y z).2.1, second_deriv (hg x y z).2.2, ?_⟩
  simp only [distSq]
  field_simp
  ring

/-- **C157 (disagreement).** The documentation calls the hat the Laplacian of a Gaussian.  In three dimensions it is no multiple
of the Laplacian of a Gaussian of any width around its centre. -/
theorem mexicanHat_not_laplacian (A sigma c0 c1 c2 t k : ℝ) (hA : A ≠ 0) (hs : sigma ≠ 0) (ht : t ≠ 0) :
    ¬ ∀ x y z L, HasLaplacian (gaussian t c0 c1 c2) L x y z → mexicanHat A sigma c0 c1 c2 x y z = k * L := by
  intro h
  have key : ∀ s, A * (1 - s ^ 2 / sigma ^ 2) * Real.exp (-s ^ 2 / (2 * sigma ^ 2)) =
      k * ((s ^ 2 / t ^ 2 - 3) / t ^ 2 * Real.exp (-s ^ 2 / (2 * t ^ 2))) := fun s => by
    have e := h (c0 + s) c1 c2 _ (gaussian_laplacian t c0 c1 c2 (c0 + s) c1 c2 ht)
    have d : distSq c0 c1 c2 (c0 + s) c1 c2 = s ^ 2 := by unfold distSq; ring
    rw [mexicanHat_eq, gaussian, d] at e
    exact e
  have k0 := key 0
  have k1 := key sigma
  have k2 := key (Real.sqrt 2 * sigma)
  have h2 : (Real.sqrt 2 * sigma) ^ 2 = 2 * sigma ^ 2 := by rw [mul_pow, Real.sq_sqrt (by norm_num)]
  rw [h2] at k2
  have hq : sigma ^ 2 ≠ 0 := by positivity
  have hu : t ^ 2 ≠ 0 := by positivity
  have kA : A = k * (-3 / t ^ 2) := by simpa using k0
  have hk : k ≠ 0 := fun e => hA (by rw [kA, e, zero_mul])
  have hst : sigma ^ 2 = 3 * t ^ 2 := by
    rw [div_self hq, sub_self, mul_zero, zero_mul] at k1
    have e := (mul_eq_zero.1 k1.symm).resolve_left hk
    have e' := (mul_eq_zero.1 e).resolve_right (Real.exp_pos _).ne'
    have e'' := (div_eq_zero_iff.1 e').resolve_right hu
    field_simp at e''
    linarith
  rw [hst] at k2
  have a1 : 2 * (3 * t ^ 2) / (3 * t ^ 2) = 2 := by field_simp
  have a2 : -(2 * (3 * t ^ 2)) / (2 * (3 * t ^ 2)) = -1 := by field_simp
  have a3 : 2 * (3 * t ^ 2) / t ^ 2 = 6 := by field_simp; norm_num
  have a4 : -(2 * (3 * t ^ 2)) / (2 * t ^ 2) = -3 := by field_simp
  rw [a1, a2, a3, a4] at k2
  have : A * (Real.exp (-1) - Real.exp (-3)) = 0 := by
    have e : k * ((6 - 3) / t ^ 2 * Real.exp (-3)) = -A * Real.exp (-3) := by rw [kA]; ring
    rw [e] at k2
    linarith
  have e := sub_eq_zero.1 ((mul_eq_zero.1 this).resolve_left hA)
  have := Real.exp_injective e
  norm_num at this

theorem gauss_sq_integrable {b : ℝ} (hb : 0 < b) : MeasureTheory.Integrable fun x : ℝ => x ^ 2 * Real.exp (-b * x ^ 2) := by
  have h := integrable_rpow_mul_exp_neg_mul_sq hb (by norm_num : (-1 : ℝ) < (2 : ℕ))
  simpa only [Real.rpow_natCast] using h

theorem gauss_flat {b : ℝ} (hb : 0 < b) : ∫ x : ℝ, (1 - 2 * b * x ^ 2) * Real.exp (-b * x ^ 2) = 0 := by
  refine MeasureTheory.integral_eq_zero_of_hasDerivAt_of_integrable (f := fun x => x * Real.exp (-b * x ^ 2)) (fun x => ?_) ?_
    (integrable_mul_exp_neg_mul_sq hb)
  · have h1 : HasDerivAt (fun s : ℝ => -b * s ^ 2) (-b * (2 * x)) x :=
      HasDerivAt.const_mul (-b) (hda_congr (hda_sq x 0) (fun s => by ring) rfl)
    exact hda_congr (HasDerivAt.mul (hasDerivAt_id x) h1.exp) (fun _ => rfl) (by simp only [id]; ring)
  · have h := (integrable_exp_neg_mul_sq hb).sub ((gauss_sq_integrable hb).const_mul (2 * b))
    refine h.congr (Filter.Eventually.of_forall fun x => ?_)
    simp only [Pi.sub_apply]
    ring

theorem gauss_quadratic {b : ℝ} (hb : 0 < b) (K p q c : ℝ) :
    ∫ x : ℝ, K * ((p + q * (x - c) ^ 2) * Real.exp (-b * (x - c) ^ 2)) = K * ((p + q / (2 * b)) * Real.sqrt (Real.pi / b)) := by
  rw [MeasureTheory.integral_const_mul,
    MeasureTheory.integral_sub_right_eq_self (fun x : ℝ => (p + q * x ^ 2) * Real.exp (-b * x ^ 2)) c]
  have e : (fun x : ℝ => (p + q * x ^ 2) * Real.exp (-b * x ^ 2)) = fun x => (p + q / (2 * b)) * Real.exp (-b * x ^ 2) -
      q / (2 * b) * ((1 - 2 * b * x ^ 2) * Real.exp (-b * x ^ 2)) := by
    funext x
    field_simp
    ring
  have hi : MeasureTheory.Integrable fun x : ℝ => (1 - 2 * b * x ^ 2) * Real.exp (-b * x ^ 2) := by
    have h := (integrable_exp_neg_mul_sq hb).sub ((gauss_sq_integrable hb).const_mul (2 * b))
    refine h.congr (Filter.Eventually.of_forall fun x => ?_)
    simp only [Pi.sub_apply]
    ring
  rw [e, MeasureTheory.integral_sub ((integrable_exp_neg_mul_sq hb).const_mul _) (hi.const_mul _),
    MeasureTheory.integral_const_mul, MeasureTheory.integral_const_mul, gauss_flat hb, integral_gaussian]
  ring

/-- **C157 (disagreement).** The documentation says that the hat has zero mean.  Its integral over space is
`-2 A (2 π σ²)^(3/2)`, so it is not 0 for any amplitude and width other than 0. -/
theorem mexicanHat_mass (A sigma c0 c1 c2 : ℝ) (hs : sigma ≠ 0) :
    (∫ z : ℝ, ∫ y : ℝ, ∫ x : ℝ, mexicanHat A sigma c0 c1 c2 x y z) = -2 * A * Real.sqrt (2 * Real.pi * sigma ^ 2) ^ 3 ∧
    (A ≠ 0 → (∫ z : ℝ, ∫ y : ℝ, ∫ x : ℝ, mexicanHat A sigma c0 c1 c2 x y z) ≠ 0) := by
  have hq : 0 < sigma ^ 2 := by positivity
  obtain ⟨b, hbd⟩ : ∃ b, b = 1 / (2 * sigma ^ 2) := ⟨_, rfl⟩
  have hb : 0 < b := by rw [hbd]; positivity
  have h2b : ∀ q : ℝ, q / (2 * b) = q * sigma ^ 2 := fun q => by rw [hbd]; field_simp
  have hI : Real.pi / b = 2 * Real.pi * sigma ^ 2 := by rw [hbd]; field_simp
  set I := Real.sqrt (2 * Real.pi * sigma ^ 2) with hIdef
  have gq := fun K p q c => gauss_quadratic hb K p q c
  simp only [h2b, hI, ← hIdef] at gq
  have ix : ∀ y z, (∫ x : ℝ, mexicanHat A sigma c0 c1 c2 x y z) = (-(A * I / sigma ^ 2) * Real.exp (-b * (z - c2) ^ 2)) *
      (((z - c2) ^ 2 + 1 * (y - c1) ^ 2) * Real.exp (-b * (y - c1) ^ 2)) := fun y z => by
    have e : (fun x => mexicanHat A sigma c0 c1 c2 x y z) = fun x =>
        (Real.exp (-b * (y - c1) ^ 2) * Real.exp (-b * (z - c2) ^ 2)) *
        ((A * (1 - ((y - c1) ^ 2 + (z - c2) ^ 2) / sigma ^ 2) + -(A / sigma ^ 2) * (x - c0) ^ 2) *
          Real.exp (-b * (x - c0) ^ 2)) := by
      funext x
      have hx : Real.exp (-distSq c0 c1 c2 x y z / (2 * sigma ^ 2)) =
          Real.exp (-b * (y - c1) ^ 2) * Real.exp (-b * (z - c2) ^ 2) * Real.exp (-b * (x - c0) ^ 2) := by
        rw [← Real.exp_add, ← Real.exp_add]
        congr 1
        rw [hbd]
        unfold distSq
        ring
      rw [mexicanHat_eq, hx]
      unfold distSq
      ring
    rw [e, gq]
    field_simp
    ring
  have iy : ∀ z, (∫ y : ℝ, ∫ x : ℝ, mexicanHat A sigma c0 c1 c2 x y z) = (-(A * I ^ 2 / sigma ^ 2)) *
      ((sigma ^ 2 + 1 * (z - c2) ^ 2) * Real.exp (-b * (z - c2) ^ 2)) := fun z => by
    simp only [ix]
    rw [gq]
    ring
  have iz : (∫ z : ℝ, ∫ y : ℝ, ∫ x : ℝ, mexicanHat A sigma c0 c1 c2 x y z) = -2 * A * I ^ 3 := by
    simp only [iy]
    rw [gq]
    field_simp
    ring
  refine ⟨iz, fun hA => ?_⟩
  rw [iz]
  have hp : 0 < I := Real.sqrt_pos.2 (by positivity)
  exact mul_ne_zero (mul_ne_zero (by norm_num) hA) (pow_pos hp 3).ne'

/-! ## Non-vacuity -/

example : distSq 0 1 2 1 1 2 < (2 : ℝ) ^ 2 ∧ distSq 0 1 2 2 1 2 = (2 : ℝ) ^ 2 ∧ (2 : ℝ) ^ 2 < distSq 0 1 2 3 1 2 := by
  unfold distSq; norm_num

example : gaussianBump 3 2 0 1 2 0 1 2 = 3 ∧ mexicanHat 3 2 0 1 2 2 1 2 = 0 :=
  ⟨(gaussianBump_spec 3 2 0 1 2 (by norm_num)).1,
    ((mexicanHat_partial 3 2 0 1 2 (by norm_num) (by norm_num)).2 2 1 2).2.1 (by unfold distSq; norm_num)⟩

example : HasLaplacian (gaussian 2 0 1 2) (-3 / 4) 0 1 2 := by
  have h := gaussian_laplacian 2 0 1 2 0 1 2 (by norm_num)
  simp only [gaussian, distSq] at h ⊢
  norm_num at h ⊢
  exact h

end Verif.Bumps
