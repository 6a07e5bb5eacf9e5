import Verif.Field.Lemmas
import Verif.Deriv.Mixed
import Verif.Coord.MetricProps

/-!
# Gradient, divergence, curl and Laplacian (C104)

A field is given in Cartesian coordinates, `F` or `W`.  The code sees it in the coordinates of its caller: a scalar as `fun q => F (sph q)`, a vector by its
components along the unit vectors.  The theorems say that it computes the derivatives of the Cartesian field, up to the error of the difference quotients.
-/

set_option autoImplicit false

namespace Verif.Field

open Deriv Coord

variable {N : ℕ}

/-! ## Errors -/

theorem lin_err {n : ℕ} {ε : ℝ} (a d : Fin n → ℝ) (h : ∀ i, |d i| ≤ ε) : |∑ i, a i * d i| ≤ (∑ i, |a i|) * ε := by
  rw [Finset.sum_mul]
  refine (Finset.abs_sum_le_sum_abs _ _).trans (Finset.sum_le_sum fun i _ => ?_)
  rw [abs_mul]
  exact mul_le_mul_of_nonneg_left (h i) (abs_nonneg _)

theorem lin1 {a x ε : ℝ} (h : |x| ≤ ε) : |a * x| ≤ |a| * ε := by
  rw [abs_mul]
  exact mul_le_mul_of_nonneg_left h (abs_nonneg _)

theorem lin2 {a b x y ε : ℝ} (h : |x| ≤ ε) (h' : |y| ≤ ε) : |a * x + b * y| ≤ (|a| + |b|) * ε := by
  rw [add_mul]
  exact (abs_add_le _ _).trans (add_le_add (lin1 h) (lin1 h'))

theorem lin3 {a b c x y z ε : ℝ} (h : |x| ≤ ε) (h' : |y| ≤ ε) (h'' : |z| ≤ ε) : |a * x + b * y + c * z| ≤ (|a| + |b| + |c|) * ε := by
  rw [add_mul]
  exact (abs_add_le _ _).trans (add_le_add (lin2 h h') (lin1 h''))

theorem lin5 {a b c d e x y z u w ε : ℝ} (h : |x| ≤ ε) (h' : |y| ≤ ε) (h'' : |z| ≤ ε) (h3 : |u| ≤ ε) (h4 : |w| ≤ ε) :
    |a * x + b * y + c * z + (d * u + e * w)| ≤ (|a| + |b| + |c| + (|d| + |e|)) * ε := by
  rw [add_mul]
  exact (abs_add_le _ _).trans (add_le_add (lin3 h h' h'') (lin2 h3 h4))

theorem smooth_nonneg {f : (Fin N → ℝ) → ℝ} {p : Fin N → ℝ} {r M : ℝ} {n : ℕ} (hr : 0 ≤ r) (h : SmoothAt f p r n M) : 0 ≤ M :=
  (norm_nonneg _).trans (h.bound p (by simpa using hr))

theorem der_err {eps : ℝ} (he : 0 < eps) (f : (Fin N → ℝ) → ℝ) (i : Fin N) (p : Fin N → ℝ) {s M : ℝ} (hs : step eps none (p i) ≤ s) (hf : SmoothAt f p (2 * s) 5 M) :
    |der eps none f i p - partial' f i p| ≤ 1 / 18 * M * s ^ 4 := by
  have hp := step_pos he (p i)
  have hM := smooth_nonneg (by linarith) hf
  refine (der_order he f i p (hf.mono (by linarith))).trans (mul_le_mul_of_nonneg_left (pow_le_pow_left₀ hp.le hs 4) (by positivity))

theorem pair_self (eps : ℝ) (p : Fin N → ℝ) (i : Fin N) : pairStep (nDer4H eps) p i i = step eps none (p i) := by
  simp [pairStep, step, scaleStep]

theorem der2_err {eps : ℝ} (he : 0 < eps) (f : (Fin N → ℝ) → ℝ) (i : Fin N) (p : Fin N → ℝ) {s M : ℝ} (hs : step eps none (p i) ≤ s) (hf : SmoothAt f p (2 * s) 6 M) :
    |der2 eps f i p - partial' (partial' f i) i p| ≤ 1 / 18 * M * s ^ 4 := by
  have hp := step_pos he (p i)
  have hM := smooth_nonneg (by linarith) hf
  obtain ⟨v, e, h1, h2⟩ := nSecDer4Partial_order eps f i i p (step eps none (p i)) M none false (by simpa using pair_self eps p i) hp (hf.mono (by linarith))
  have h3 : der2 eps f i p = v := by rw [der2, h1, value]
  rw [h3]
  refine h2.trans ?_
  have h4 := mul_le_mul_of_nonneg_left (pow_le_pow_left₀ hp.le hs 4) hM
  have h5 : 0 ≤ M * s ^ 4 := by positivity
  linarith

/-- The rules for derivatives: the order, the base of the step, the number of steps looked at to each side and the factor in front of the error. -/
inductive Rule (eps : ℝ) : ℕ → ℝ → ℝ → ℝ → Prop
  | one : Rule eps 1 (nDer1H eps) 1 (1 / 2)
  | two : Rule eps 2 (nDer2H eps) 1 (1 / 6)
  | four : Rule eps 4 (nDer4H eps) 2 (1 / 18)
  | six : Rule eps 6 (nDer6H eps) 3 (47 / 2100)
  | eight : Rule eps 8 (nDer8H eps) 4 (1957 / 198450)

theorem partials_order {eps : ℝ} (he : 0 < eps) {k : ℕ} {b r c : ℝ} (hk : Rule eps k b r c) (f : (Fin N → ℝ) → ℝ) (p : Fin N → ℝ) {s M : ℝ} (hs : ∀ i, scaleStep b (p i) ≤ s)
    (hf : SmoothAt f p (r * s) (k + 1) M) : ∃ d, partials eps k f p = .ret d ∧ ∀ i, |d i - partial' f i p| ≤ c * M * s ^ k := by
  have hp := fun i => default_steps_pos eps (p i) he
  cases hk
  · refine ⟨_, by rw [partials]; simp; rfl, fun i => ?_⟩
    have h0 := (hp i).1
    have hM := smooth_nonneg (by nlinarith [hs i]) hf
    obtain ⟨v, e, h1, h2⟩ := nDer1Partial_order eps f i p _ M none false rfl h0 (hf.mono (by simpa using hs i))
    rw [h1]
    exact h2.trans (mul_le_mul_of_nonneg_left (pow_le_pow_left₀ h0.le (hs i) _) (by positivity))
  · refine ⟨_, by rw [partials]; simp; rfl, fun i => ?_⟩
    have h0 := (hp i).2.1
    have hM := smooth_nonneg (by nlinarith [hs i]) hf
    obtain ⟨v, e, h1, h2⟩ := nDer2Partial_order eps f i p _ M none false rfl h0 (hf.mono (by simpa using hs i))
    rw [h1]
    exact h2.trans (mul_le_mul_of_nonneg_left (pow_le_pow_left₀ h0.le (hs i) _) (by positivity))
  · refine ⟨_, by rw [partials]; simp; rfl, fun i => ?_⟩
    have h0 := (hp i).2.2.1
    have hM := smooth_nonneg (by nlinarith [hs i]) hf
    obtain ⟨v, e, h1, h2⟩ := nDer4Partial_order eps f i p _ M none false rfl h0 (hf.mono (by simpa using hs i))
    rw [h1]
    exact h2.trans (mul_le_mul_of_nonneg_left (pow_le_pow_left₀ h0.le (hs i) _) (by positivity))
  · refine ⟨_, by rw [partials]; simp; rfl, fun i => ?_⟩
    have h0 := (hp i).2.2.2.1
    have hM := smooth_nonneg (by nlinarith [hs i]) hf
    obtain ⟨v, e, h1, h2⟩ := nDer6Partial_order eps f i p _ M none false rfl h0 (hf.mono (by simpa using hs i))
    rw [h1]
    exact h2.trans (mul_le_mul_of_nonneg_left (pow_le_pow_left₀ h0.le (hs i) _) (by positivity))
  · refine ⟨_, by rw [partials]; simp; rfl, fun i => ?_⟩
    have h0 := (hp i).2.2.2.2
    have hM := smooth_nonneg (by nlinarith [hs i]) hf
    obtain ⟨v, e, h1, h2⟩ := nDer8Partial_order eps f i p _ M none false rfl h0 (hf.mono (by simpa using hs i))
    rw [h1]
    exact h2.trans (mul_le_mul_of_nonneg_left (pow_le_pow_left₀ h0.le (hs i) _) (by positivity))

theorem safe_ret {policy : Policy} {num den : ℝ} (h : tol ≤ |den|) : safeDivide policy num den = .ret (some (num / den)) := by
  rw [safeDivide, if_neg (not_lt.2 h)]

theorem tol_pos : 0 < tol := by rw [tol]; positivity

theorem ne_of_tol {x : ℝ} (h : tol ≤ |x|) : x ≠ 0 := by
  rintro rfl
  rw [abs_zero] at h
  exact absurd h (not_le.2 tol_pos)

/-! ## The derivatives of the components in spherical and cylindrical coordinates -/

theorem sph_partials (W : (Fin 3 → ℝ) → Fin 3 → ℝ) (p : Fin 3 → ℝ) (hW : ∀ k, DifferentiableAt ℝ (fun y => W y k) (sph p)) :
    ∃ J : Fin 3 → Fin 3 → ℝ, (J 0 0 + J 1 1 + J 2 2 = div' W (sph p) ∧ J 2 1 - J 1 2 = curl W (sph p) ⬝ᵥ sphE 0 p ∧ J 0 2 - J 2 0 = curl W (sph p) ⬝ᵥ sphE 1 p ∧
      J 1 0 - J 0 1 = curl W (sph p) ⬝ᵥ sphE 2 p) ∧
      ∀ i, partial' (fun q => comps sph sphE W q i) 0 p = J i 0 ∧
        partial' (fun q => comps sph sphE W q i) 1 p = p 0 * J i 1 + ![comps sph sphE W p 1, -comps sph sphE W p 0, 0] i ∧
        partial' (fun q => comps sph sphE W q i) 2 p = p 0 * Real.sin (p 1) * J i 2 +
          ![Real.sin (p 1) * comps sph sphE W p 2, Real.cos (p 1) * comps sph sphE W p 2, -(Real.sin (p 1) * comps sph sphE W p 0 + Real.cos (p 1) * comps sph sphE W p 1)] i := by
  refine ⟨jac (fun k l => partial' (fun y => W y k) l (sph p)) fun i => sphE i p, ⟨?_, ?_⟩, fun i => ⟨?_, ?_, ?_⟩⟩
  · rw [jac_trace (sphE_frame p), div', Fin.sum_univ_three]
  · exact jac_curl (sphE_frame p)
  all_goals
    rw [partial_comps sph_sys W p hW]
    fin_cases i <;> simp [sphH, sphΓ, comps, dotProduct_neg, dotProduct_add, dotProduct_smul]

theorem cyl_partials (W : (Fin 3 → ℝ) → Fin 3 → ℝ) (p : Fin 3 → ℝ) (hW : ∀ k, DifferentiableAt ℝ (fun y => W y k) (cyl p)) :
    ∃ J : Fin 3 → Fin 3 → ℝ, (J 0 0 + J 1 1 + J 2 2 = div' W (cyl p) ∧ J 2 1 - J 1 2 = curl W (cyl p) ⬝ᵥ cylE 0 p ∧ J 0 2 - J 2 0 = curl W (cyl p) ⬝ᵥ cylE 1 p ∧
      J 1 0 - J 0 1 = curl W (cyl p) ⬝ᵥ cylE 2 p) ∧
      ∀ i, partial' (fun q => comps cyl cylE W q i) 0 p = J i 0 ∧
        partial' (fun q => comps cyl cylE W q i) 1 p = p 0 * J i 1 + ![comps cyl cylE W p 1, -comps cyl cylE W p 0, 0] i ∧
        partial' (fun q => comps cyl cylE W q i) 2 p = J i 2 := by
  refine ⟨jac (fun k l => partial' (fun y => W y k) l (cyl p)) fun i => cylE i p, ⟨?_, ?_⟩, fun i => ⟨?_, ?_, ?_⟩⟩
  · rw [jac_trace (cylE_frame p), div', Fin.sum_univ_three]
  · exact jac_curl (cylE_frame p)
  all_goals
    rw [partial_comps cyl_sys W p hW]
    fin_cases i <;> simp [cylH, cylΓ, comps, dotProduct_neg, dotProduct_add, dotProduct_smul]

theorem grad_diff {F : (Fin 3 → ℝ) → ℝ} {x : Fin 3 → ℝ} (hF : ContDiffAt ℝ 2 F x) (k : Fin 3) : DifferentiableAt ℝ (fun y => partial' F k y) x := by
  have : ContDiffAt ℝ 1 (fderiv ℝ F) x := hF.fderiv_right (by norm_num)
  exact (this.differentiableAt (by norm_num)).clm_apply (differentiableAt_const _)

/-! ## Safe division -/

/-- Division away from zero is division.  Close to zero the five policies: an exception, a result that is not finite (twice), the numerator divided by the tolerance with the sign of
the denominator, and zero.  So with any policy but the second and the third a returned number is finite and at most `|num| / tol` in modulus. -/
theorem safeDivide_spec (policy : Policy) (num den : ℝ) :
    (tol ≤ |den| → safeDivide policy num den = .ret (some (num / den))) ∧
    (|den| < tol → safeDivide .throw num den = .exn (.mml "DomainError") ∧ safeDivide .nan num den = .ret none ∧ safeDivide .inf num den = .ret none ∧
      safeDivide .zero num den = .ret (some 0) ∧ (0 ≤ den → safeDivide .clamp num den = .ret (some (num / tol))) ∧
      (den < 0 → safeDivide .clamp num den = .ret (some (-(num / tol))))) ∧
    ∀ v, safeDivide policy num den = .ret (some v) → |v| ≤ |num| / tol := by
  refine ⟨safe_ret, fun h => ⟨?_, ?_, ?_, ?_, fun h' => ?_, fun h' => ?_⟩, fun v hv => ?_⟩
  · rw [safeDivide, if_pos h]; rfl
  · rw [safeDivide, if_pos h]; rfl
  · rw [safeDivide, if_pos h]; rfl
  · rw [safeDivide, if_pos h]; rfl
  · rw [safeDivide, if_pos h, nearZero, if_pos h']
  · rw [safeDivide, if_pos h, nearZero, if_neg (not_le.2 h'), div_neg]
  · have ht := tol_pos
    by_cases h : |den| < tol
    · rw [safeDivide, if_pos h] at hv
      cases policy <;> simp only [nearZero] at hv
      · exact absurd hv (by simp)
      · exact absurd hv (by simp)
      · exact absurd hv (by simp)
      · have := Option.some.inj (Outcome.ret.inj hv)
        rw [← this, abs_div]
        split_ifs <;> simp [abs_of_pos ht]
      · have := Option.some.inj (Outcome.ret.inj hv)
        rw [← this, abs_zero]
        positivity
    · rw [safe_ret (not_lt.1 h)] at hv
      have := Option.some.inj (Outcome.ret.inj hv)
      rw [← this, abs_div]
      exact div_le_div_of_nonneg_left (abs_nonneg _) ht (not_lt.1 h)

/-- Beside it: both cases occur. -/
example : tol ≤ |(2 : ℝ)| ∧ |(0 : ℝ)| < tol := by
  rw [tol]; norm_num

/-! ## Gradients -/

/-- `GradientCart`: for the orders 1, 2, 4, 6 and 8 the partial derivatives, up to the error of the rule; any other order is refused. -/
theorem gradientCart_order {eps : ℝ} (he : 0 < eps) {k : ℕ} {b r c : ℝ} (hk : Rule eps k b r c) (f : (Fin N → ℝ) → ℝ) (p : Fin N → ℝ) {s M : ℝ} (hs : ∀ i, scaleStep b (p i) ≤ s)
    (hf : SmoothAt f p (r * s) (k + 1) M) : ∃ d, gradientCart eps k f p = .ret d ∧ ∀ i, |d i - fderiv ℝ f p (Pi.single i 1)| ≤ c * M * s ^ k :=
  partials_order he hk f p hs hf

theorem gradient_refused {eps : ℝ} {k : ℤ} (hk : k ≠ 1 ∧ k ≠ 2 ∧ k ≠ 4 ∧ k ≠ 6 ∧ k ≠ 8) (policy : Policy) :
    (∀ (f : (Fin N → ℝ) → ℝ) p, gradientCart eps k f p = .exn .invalidArgument) ∧ (∀ f p, gradientSpher eps k policy f p = .exn .invalidArgument) ∧
    ∀ f p, gradientCyl eps k policy f p = .exn .invalidArgument := by
  obtain ⟨h1, h2, h3, h4, h5⟩ := hk
  have h : ∀ {N : ℕ} (f : (Fin N → ℝ) → ℝ) p, partials eps k f p = .exn .invalidArgument := by
    intro N f p
    simp [partials, h1, h2, h3, h4, h5]
  exact ⟨h, fun f p => by rw [gradientSpher, h, Outcome.bind_exn], fun f p => by rw [gradientCyl, h, Outcome.bind_exn]⟩

example : (3 : ℤ) ≠ 1 ∧ (3 : ℤ) ≠ 2 ∧ (3 : ℤ) ≠ 4 ∧ (3 : ℤ) ≠ 6 ∧ (3 : ℤ) ≠ 8 := by decide

/-- `GradientSpher` of a field `F` given in spherical coordinates: the components of the Cartesian gradient along the unit vectors, for every order of the rule and every policy, away
from the polar axis. -/
theorem gradientSpher_order {eps : ℝ} (he : 0 < eps) {k : ℕ} {b r c : ℝ} (hk : Rule eps k b r c) (policy : Policy) (F : (Fin 3 → ℝ) → ℝ) (p : Fin 3 → ℝ)
    (hF : DifferentiableAt ℝ F (sph p)) {s M : ℝ} (hs : ∀ i, scaleStep b (p i) ≤ s) (hf : SmoothAt (fun q => F (sph q)) p (r * s) (k + 1) M)
    (h1 : tol ≤ |p 0|) (h2 : tol ≤ |p 0 * Real.sin (p 1)|) :
    ∃ d : Fin 3 → ℝ, gradientSpher eps k policy (fun q => F (sph q)) p = .ret (fun i => some (d i)) ∧
      ∀ i, |d i - (fun k => fderiv ℝ F (sph p) (Pi.single k 1)) ⬝ᵥ sphE i p| ≤ c * M * s ^ k * ![1, 1 / |p 0|, 1 / |p 0 * Real.sin (p 1)|] i := by
  obtain ⟨d, hd, hb⟩ := partials_order he hk _ p hs hf
  refine ⟨![d 0, d 1 * (1 / p 0), d 2 * (1 / (p 0 * Real.sin (p 1)))], ?_, fun i => ?_⟩
  · rw [gradientSpher, hd, Outcome.bind_ret, safe_ret h1, Outcome.bind_ret, safe_ret h2, Outcome.bind_ret]
    congr 1
    funext i
    fin_cases i <;> rfl
  · have e := fun i => partial_scalar sph_sys F p hF i
    have n1 := ne_of_tol h1
    have n2 : Real.sin (p 1) ≠ 0 := fun h0 => ne_of_tol h2 (by rw [h0, mul_zero])
    simp only [comps, partial'] at e
    have b := hb i
    rw [partial', e i] at b
    fin_cases i
    · simpa [sphH] using b
    · simp only [sphH, Fin.mk_one, Matrix.cons_val_one, Matrix.cons_val_zero] at b ⊢
      have h := lin1 (a := 1 / p 0) b
      rw [abs_div, abs_one] at h
      rw [mul_comm (c * M * s ^ k)]
      refine le_trans (le_of_eq ?_) h
      congr 1
      field_simp
    · simp only [sphH, Fin.reduceFinMk, Matrix.cons_val] at b ⊢
      have h := lin1 (a := 1 / (p 0 * Real.sin (p 1))) b
      rw [abs_div, abs_one] at h
      rw [mul_comm (c * M * s ^ k)]
      refine le_trans (le_of_eq ?_) h
      congr 1
      field_simp

/-- `GradientCyl`: the same in cylindrical coordinates, away from the axis. -/
theorem gradientCyl_order {eps : ℝ} (he : 0 < eps) {k : ℕ} {b r c : ℝ} (hk : Rule eps k b r c) (policy : Policy) (F : (Fin 3 → ℝ) → ℝ) (p : Fin 3 → ℝ)
    (hF : DifferentiableAt ℝ F (cyl p)) {s M : ℝ} (hs : ∀ i, scaleStep b (p i) ≤ s) (hf : SmoothAt (fun q => F (cyl q)) p (r * s) (k + 1) M)
    (h1 : tol ≤ |p 0|) :
    ∃ d : Fin 3 → ℝ, gradientCyl eps k policy (fun q => F (cyl q)) p = .ret (fun i => some (d i)) ∧
      ∀ i, |d i - (fun k => fderiv ℝ F (cyl p) (Pi.single k 1)) ⬝ᵥ cylE i p| ≤ c * M * s ^ k * ![1, 1 / |p 0|, 1] i := by
  obtain ⟨d, hd, hb⟩ := partials_order he hk _ p hs hf
  refine ⟨![d 0, d 1 * (1 / p 0), d 2], ?_, fun i => ?_⟩
  · rw [gradientCyl, hd, Outcome.bind_ret, safe_ret h1, Outcome.bind_ret]
    congr 1
    funext i
    fin_cases i <;> rfl
  · have e := fun i => partial_scalar cyl_sys F p hF i
    have n1 := ne_of_tol h1
    simp only [comps, partial'] at e
    have b := hb i
    rw [partial', e i] at b
    fin_cases i
    · simpa [cylH] using b
    · simp only [cylH, Fin.mk_one, Matrix.cons_val_one, Matrix.cons_val_zero] at b ⊢
      have h := lin1 (a := 1 / p 0) b
      rw [abs_div, abs_one] at h
      rw [mul_comm (c * M * s ^ k)]
      refine le_trans (le_of_eq ?_) h
      congr 1
      field_simp
    · simpa [cylH] using b

/-! ## Laplacians -/

/-- `LaplacianCart`: the Laplacian, up to the error of the difference quotients. -/
theorem laplacianCart_order {eps : ℝ} (he : 0 < eps) (F : (Fin N → ℝ) → ℝ) (p : Fin N → ℝ) {s M : ℝ} (hs : ∀ i, step eps none (p i) ≤ s) (h6 : SmoothAt F p (2 * s) 6 M) :
    |laplacianCart eps F p - lap F p| ≤ 1 / 18 * M * s ^ 4 * N := by
  rw [laplacianCart, lap, ← Finset.sum_sub_distrib]
  refine (Finset.abs_sum_le_sum_abs _ _).trans ((Finset.sum_le_sum fun i _ => der2_err he F i p (hs i) h6).trans (le_of_eq ?_))
  simp [mul_comm]

theorem r_of_r2 {r : ℝ} (h : tol ≤ |r * r|) : tol ≤ |r| := by
  by_contra hc
  push Not at hc
  have h1 : |r| * |r| < tol * 1 := by
    have h2 : tol ≤ 1 := by rw [tol]; norm_num
    exact mul_lt_mul'' hc (hc.trans_le h2) (abs_nonneg _) (abs_nonneg _)
  rw [abs_mul] at h
  linarith

theorem of_mul_sin {x t : ℝ} (h : tol ≤ |x * Real.sin t|) : tol ≤ |x| := by
  rw [abs_mul] at h
  exact h.trans (mul_le_of_le_one_right (abs_nonneg _) (Real.abs_sin_le_one t))

/-- `LaplacianSpher` of a field `F` given in spherical coordinates: the Laplacian of `F`, away from the polar axis. -/
theorem laplacianSpher_order {eps : ℝ} (he : 0 < eps) (policy : Policy) (F : (Fin 3 → ℝ) → ℝ) (p : Fin 3 → ℝ) (hF : ContDiffAt ℝ 2 F (sph p)) {s M : ℝ}
    (hs : ∀ i, step eps none (p i) ≤ s) (h5 : SmoothAt (fun q => F (sph q)) p (2 * s) 5 M) (h6 : SmoothAt (fun q => F (sph q)) p (2 * s) 6 M)
    (h : tol ≤ |p 0 * p 0 * Real.sin (p 1) * Real.sin (p 1)|) :
    ∃ v, laplacianSpher eps policy (fun q => F (sph q)) p = .ret (some v) ∧
      |v - lap F (sph p)| ≤ (1 + |2 * (1 / p 0)| + |Real.cos (p 1) / (p 0 * p 0 * Real.sin (p 1))| + (|1 / (p 0 * p 0)| + |1 / (p 0 * p 0 * Real.sin (p 1) * Real.sin (p 1))|)) *
        (1 / 18 * M * s ^ 4) := by
  have t3 := of_mul_sin h
  have t2 := of_mul_sin t3
  have t1 := r_of_r2 t2
  refine ⟨lapSpherSum eps (fun q => F (sph q)) p (1 / p 0) (1 / (p 0 * p 0)) (Real.cos (p 1) / (p 0 * p 0 * Real.sin (p 1))) (1 / (p 0 * p 0 * Real.sin (p 1) * Real.sin (p 1))), by
    rw [laplacianSpher, safe_ret t1, Outcome.bind_ret, safe_ret t2, Outcome.bind_ret, safe_ret t3, Outcome.bind_ret, safe_ret h, Outcome.bind_ret]; rfl, ?_⟩
  have n1 := ne_of_tol t1
  have n2 : Real.sin (p 1) ≠ 0 := fun h0 => ne_of_tol t3 (by rw [h0, mul_zero])
  obtain ⟨J, ⟨hJ, -⟩, hD⟩ := sph_partials (fun y k => partial' F k y) (p := p) (grad_diff hF)
  have f1 := fun i => partial_scalar sph_sys F p (hF.differentiableAt (by norm_num)) i
  have f2 := fun i => second_scalar sph_sys F p hF i
  have d0 := (hD 0).1
  have d1 := (hD 1).2.1
  have d2 := (hD 2).2.2
  have l : lap F (sph p) = partial' (partial' (fun q => F (sph q)) 0) 0 p + 2 * (1 / p 0) * partial' (fun q => F (sph q)) 0 p +
      Real.cos (p 1) / (p 0 * p 0 * Real.sin (p 1)) * partial' (fun q => F (sph q)) 1 p +
      (1 / (p 0 * p 0) * partial' (partial' (fun q => F (sph q)) 1) 1 p + 1 / (p 0 * p 0 * Real.sin (p 1) * Real.sin (p 1)) * partial' (partial' (fun q => F (sph q)) 2) 2 p) := by
    have l0 : lap F (sph p) = div' (fun y k => partial' F k y) (sph p) := rfl
    rw [l0, ← hJ]
    change _ = partial' (fun q => partial' (fun q => F (sph q)) 0 q) 0 p + _ + _ + (_ * partial' (fun q => partial' (fun q => F (sph q)) 1 q) 1 p +
      _ * partial' (fun q => partial' (fun q => F (sph q)) 2 q) 2 p)
    rw [f2 0, f2 1, f2 2, f1 0, f1 1, d0, d1, d2]
    simp [sphH]
    field_simp
    ring
  have b := lin5 (a := 1) (b := 2 * (1 / p 0)) (c := Real.cos (p 1) / (p 0 * p 0 * Real.sin (p 1))) (d := 1 / (p 0 * p 0)) (e := 1 / (p 0 * p 0 * Real.sin (p 1) * Real.sin (p 1)))
    (der2_err he _ 0 p (hs 0) h6) (der_err he _ 0 p (hs 0) h5) (der_err he _ 1 p (hs 1) h5) (der2_err he _ 1 p (hs 1) h6) (der2_err he _ 2 p (hs 2) h6)
  rw [abs_one] at b
  refine le_trans (le_of_eq ?_) b
  rw [l, lapSpherSum]
  congr 1
  ring

/-- `LaplacianCyl`: the same in cylindrical coordinates, away from the axis. -/
theorem laplacianCyl_order {eps : ℝ} (he : 0 < eps) (policy : Policy) (F : (Fin 3 → ℝ) → ℝ) (p : Fin 3 → ℝ) (hF : ContDiffAt ℝ 2 F (cyl p)) {s M : ℝ}
    (hs : ∀ i, step eps none (p i) ≤ s) (h5 : SmoothAt (fun q => F (cyl q)) p (2 * s) 5 M) (h6 : SmoothAt (fun q => F (cyl q)) p (2 * s) 6 M)
    (h : tol ≤ |p 0 * p 0|) :
    ∃ v, laplacianCyl eps policy (fun q => F (cyl q)) p = .ret (some v) ∧
      |v - lap F (cyl p)| ≤ (2 + |1 / p 0| + |1 / (p 0 * p 0)|) * (1 / 18 * M * s ^ 4) := by
  have t1 := r_of_r2 h
  refine ⟨lapCylSum eps (fun q => F (cyl q)) p (1 / p 0) (1 / (p 0 * p 0)), by rw [laplacianCyl, safe_ret t1, Outcome.bind_ret, safe_ret h, Outcome.bind_ret]; rfl, ?_⟩
  have n1 := ne_of_tol t1
  obtain ⟨J, ⟨hJ, -⟩, hD⟩ := cyl_partials (fun y k => partial' F k y) (p := p) (grad_diff hF)
  have f1 := fun i => partial_scalar cyl_sys F p (hF.differentiableAt (by norm_num)) i
  have f2 := fun i => second_scalar cyl_sys F p hF i
  have d0 := (hD 0).1
  have d1 := (hD 1).2.1
  have d2 := (hD 2).2.2
  have l : lap F (cyl p) = 1 / p 0 * partial' (fun q => F (cyl q)) 0 p + partial' (partial' (fun q => F (cyl q)) 0) 0 p +
      1 / (p 0 * p 0) * partial' (partial' (fun q => F (cyl q)) 1) 1 p + partial' (partial' (fun q => F (cyl q)) 2) 2 p := by
    have l0 : lap F (cyl p) = div' (fun y k => partial' F k y) (cyl p) := rfl
    rw [l0, ← hJ]
    change _ = _ + partial' (fun q => partial' (fun q => F (cyl q)) 0 q) 0 p + _ * partial' (fun q => partial' (fun q => F (cyl q)) 1 q) 1 p +
      partial' (fun q => partial' (fun q => F (cyl q)) 2 q) 2 p
    rw [f2 0, f2 1, f2 2, f1 0, d0, d1, d2]
    simp [cylH]
    field_simp
    ring
  have b := lin5 (a := 1) (b := 1 / p 0) (c := 1 / (p 0 * p 0)) (d := 1) (e := 0)
    (der2_err he _ 0 p (hs 0) h6) (der_err he _ 0 p (hs 0) h5) (der2_err he _ 1 p (hs 1) h6) (der2_err he _ 2 p (hs 2) h6) (der2_err he _ 2 p (hs 2) h6)
  rw [abs_one, abs_zero] at b
  refine le_trans (le_of_eq ?_) (b.trans (le_of_eq ?_))
  · rw [l, lapCylSum]
    congr 1
    ring
  · ring

/-! ## Divergence -/

/-- `DivCart`: the divergence, up to the error of the difference quotients. -/
theorem divCart_order {eps : ℝ} (he : 0 < eps) (W : (Fin N → ℝ) → Fin N → ℝ) (p : Fin N → ℝ) {s M : ℝ} (hs : ∀ i, step eps none (p i) ≤ s)
    (h5 : ∀ i, SmoothAt (fun q => W q i) p (2 * s) 5 M) : |divCart eps W p - div' W p| ≤ 1 / 18 * M * s ^ 4 * N := by
  rw [divCart, div', ← Finset.sum_sub_distrib]
  refine (Finset.abs_sum_le_sum_abs _ _).trans ((Finset.sum_le_sum fun i _ => der_err he (fun q => W q i) i p (hs i) (h5 i)).trans (le_of_eq ?_))
  simp [mul_comm]

/-- `DivSpher` of a field `W` given by its components along the unit vectors of spherical coordinates: the divergence of `W`, away from the polar axis. -/
theorem divSpher_order {eps : ℝ} (he : 0 < eps) (policy : Policy) (W : (Fin 3 → ℝ) → Fin 3 → ℝ) (p : Fin 3 → ℝ) (hW : ∀ k, DifferentiableAt ℝ (fun y => W y k) (sph p)) {s M : ℝ}
    (hs : ∀ i, step eps none (p i) ≤ s) (h5 : ∀ i, SmoothAt (fun q => comps sph sphE W q i) p (2 * s) 5 M) (h1 : tol ≤ |p 0 * p 0|) (h2 : tol ≤ |p 0 * Real.sin (p 1)|) :
    ∃ v, divSpher eps policy (comps sph sphE W) p = .ret (some v) ∧
      |v - div' W (sph p)| ≤ (1 + |1 / p 0| + |1 / (p 0 * Real.sin (p 1))|) * (1 / 18 * M * s ^ 4) := by
  refine ⟨divSpherSum eps (comps sph sphE W) p (1 / (p 0 * p 0)) (1 / (p 0 * Real.sin (p 1))), by rw [divSpher, safe_ret h1, Outcome.bind_ret, safe_ret h2, Outcome.bind_ret]; rfl, ?_⟩
  have n1 := ne_of_tol (r_of_r2 h1)
  have n2 : Real.sin (p 1) ≠ 0 := fun h0 => ne_of_tol h2 (by rw [h0, mul_zero])
  obtain ⟨J, ⟨hJ, -⟩, hD⟩ := sph_partials W p hW
  have d0 := (hD 0).1
  have d1 := (hD 1).2.1
  have d2 := (hD 2).2.2
  have b := lin3 (a := 1) (b := 1 / p 0) (c := 1 / (p 0 * Real.sin (p 1))) (der_err he _ 0 p (hs 0) (h5 0)) (der_err he _ 1 p (hs 1) (h5 1)) (der_err he _ 2 p (hs 2) (h5 2))
  rw [abs_one] at b
  refine le_trans (le_of_eq ?_) b
  rw [← hJ, divSpherSum, d0, d1, d2]
  simp only [derV]
  congr 1
  simp
  field_simp
  ring

/-- `DivCyl`: the same in cylindrical coordinates, away from the axis. -/
theorem divCyl_order {eps : ℝ} (he : 0 < eps) (policy : Policy) (W : (Fin 3 → ℝ) → Fin 3 → ℝ) (p : Fin 3 → ℝ) (hW : ∀ k, DifferentiableAt ℝ (fun y => W y k) (cyl p)) {s M : ℝ}
    (hs : ∀ i, step eps none (p i) ≤ s) (h5 : ∀ i, SmoothAt (fun q => comps cyl cylE W q i) p (2 * s) 5 M) (h1 : tol ≤ |p 0|) :
    ∃ v, divCyl eps policy (comps cyl cylE W) p = .ret (some v) ∧ |v - div' W (cyl p)| ≤ (2 + |1 / p 0|) * (1 / 18 * M * s ^ 4) := by
  refine ⟨divCylSum eps (comps cyl cylE W) p (1 / p 0), by rw [divCyl, safe_ret h1, Outcome.bind_ret]; rfl, ?_⟩
  have n1 := ne_of_tol h1
  obtain ⟨J, ⟨hJ, -⟩, hD⟩ := cyl_partials W p hW
  have d0 := (hD 0).1
  have d1 := (hD 1).2.1
  have d2 := (hD 2).2.2
  have b := lin3 (a := 1) (b := 1 / p 0) (c := 1) (der_err he _ 0 p (hs 0) (h5 0)) (der_err he _ 1 p (hs 1) (h5 1)) (der_err he _ 2 p (hs 2) (h5 2))
  rw [abs_one] at b
  refine le_trans (le_of_eq ?_) (b.trans (le_of_eq (by ring)))
  rw [← hJ, divCylSum, d0, d1, d2]
  simp only [derV]
  congr 1
  simp
  field_simp
  ring

/-! ## Curl -/

/-- `CurlCart`: the curl, up to the error of the difference quotients. -/
theorem curlCart_order {eps : ℝ} (he : 0 < eps) (W : (Fin 3 → ℝ) → Fin 3 → ℝ) (p : Fin 3 → ℝ) {s M : ℝ} (hs : ∀ i, step eps none (p i) ≤ s)
    (h5 : ∀ i, SmoothAt (fun q => W q i) p (2 * s) 5 M) (i : Fin 3) : |curlCart eps W p i - curl W p i| ≤ 2 * (1 / 18 * M * s ^ 4) := by
  have d := fun a b => der_err he (fun q => W q a) b p (hs b) (h5 a)
  have e : ∀ a b c d', |derV eps W a b p - derV eps W c d' p - (partial' (fun q => W q a) b p - partial' (fun q => W q c) d' p)| ≤ 2 * (1 / 18 * M * s ^ 4) := by
    intro a b c d'
    have b := lin2 (a := 1) (b := -1) (d a b) (d c d')
    rw [abs_neg, abs_one] at b
    refine le_trans (le_of_eq ?_) (b.trans (le_of_eq (by ring)))
    simp only [derV]
    congr 1
    ring
  fin_cases i
  · exact e 2 1 1 2
  · exact e 0 2 2 0
  · exact e 1 0 0 1

/-- `CurlSpher` of a field `W` given by its components along the unit vectors of spherical coordinates: the components of the curl of `W` along them, away from the polar axis. -/
theorem curlSpher_order {eps : ℝ} (he : 0 < eps) (policy : Policy) (W : (Fin 3 → ℝ) → Fin 3 → ℝ) (p : Fin 3 → ℝ) (hW : ∀ k, DifferentiableAt ℝ (fun y => W y k) (sph p)) {s M : ℝ}
    (hs : ∀ i, step eps none (p i) ≤ s) (h5 : ∀ i, SmoothAt (fun q => comps sph sphE W q i) p (2 * s) 5 M) (h1 : tol ≤ |p 0|) (h2 : tol ≤ |p 0 * Real.sin (p 1)|)
    (h3 : tol ≤ |Real.sin (p 1)|) :
    ∃ v : Fin 3 → ℝ, curlSpher eps policy (comps sph sphE W) p = .ret (fun i => some (v i)) ∧
      ∀ i, |v i - curl W (sph p) ⬝ᵥ sphE i p| ≤ ![|1 / p 0| + |1 / (p 0 * Real.sin (p 1))|, |1 / (p 0 * Real.sin (p 1))| + 1, 1 + |1 / p 0|] i * (1 / 18 * M * s ^ 4) := by
  refine ⟨![_, _, _], by
    rw [curlSpher, safe_ret h1, Outcome.bind_ret, safe_ret h2, Outcome.bind_ret, safe_ret h3, Outcome.bind_ret]
    congr 1
    funext i
    fin_cases i <;> rfl, fun i => ?_⟩
  have n1 := ne_of_tol h1
  have n2 := ne_of_tol h3
  obtain ⟨J, ⟨-, c0, c1, c2⟩, hD⟩ := sph_partials W p hW
  have d := fun a b => der_err he (fun q => comps sph sphE W q a) b p (hs b) (h5 a)
  fin_cases i
  · have b := lin2 (a := 1 / p 0) (b := -(1 / (p 0 * Real.sin (p 1)))) (d 2 1) (d 1 2)
    rw [abs_neg] at b
    refine le_trans (le_of_eq ?_) b
    simp only [derV, Fin.zero_eta, Matrix.cons_val_zero]
    rw [← c0, (hD 2).2.1, (hD 1).2.2]
    congr 1
    simp
    field_simp
    ring
  · have b := lin2 (a := 1 / (p 0 * Real.sin (p 1))) (b := -1) (d 0 2) (d 2 0)
    rw [abs_neg, abs_one] at b
    refine le_trans (le_of_eq ?_) b
    simp only [derV, Fin.mk_one, Matrix.cons_val_one, Matrix.cons_val_zero]
    rw [← c1, (hD 0).2.2, (hD 2).1]
    congr 1
    simp
    field_simp
    ring
  · have b := lin2 (a := 1) (b := -(1 / p 0)) (d 1 0) (d 0 1)
    rw [abs_neg, abs_one] at b
    refine le_trans (le_of_eq ?_) b
    simp only [derV, Fin.reduceFinMk, Matrix.cons_val]
    rw [← c2, (hD 1).1, (hD 0).2.1]
    congr 1
    simp
    field_simp
    ring

/-- `CurlCyl`: the same in cylindrical coordinates, away from the axis. -/
theorem curlCyl_order {eps : ℝ} (he : 0 < eps) (policy : Policy) (W : (Fin 3 → ℝ) → Fin 3 → ℝ) (p : Fin 3 → ℝ) (hW : ∀ k, DifferentiableAt ℝ (fun y => W y k) (cyl p)) {s M : ℝ}
    (hs : ∀ i, step eps none (p i) ≤ s) (h5 : ∀ i, SmoothAt (fun q => comps cyl cylE W q i) p (2 * s) 5 M) (h1 : tol ≤ |p 0|) :
    ∃ v : Fin 3 → ℝ, curlCyl eps policy (comps cyl cylE W) p = .ret (fun i => some (v i)) ∧
      ∀ i, |v i - curl W (cyl p) ⬝ᵥ cylE i p| ≤ ![|1 / p 0| + 1, 2, 1 + |1 / p 0|] i * (1 / 18 * M * s ^ 4) := by
  refine ⟨![_, _, _], by
    rw [curlCyl, safe_ret h1, Outcome.bind_ret]
    congr 1
    funext i
    fin_cases i <;> rfl, fun i => ?_⟩
  have n1 := ne_of_tol h1
  obtain ⟨J, ⟨-, c0, c1, c2⟩, hD⟩ := cyl_partials W p hW
  have d := fun a b => der_err he (fun q => comps cyl cylE W q a) b p (hs b) (h5 a)
  fin_cases i
  · have b := lin2 (a := 1 / p 0) (b := -1) (d 2 1) (d 1 2)
    rw [abs_neg, abs_one] at b
    refine le_trans (le_of_eq ?_) b
    simp only [derV, Fin.zero_eta, Matrix.cons_val_zero]
    rw [← c0, (hD 2).2.1, (hD 1).2.2]
    congr 1
    simp
    field_simp
    ring
  · have b := lin2 (a := 1) (b := -1) (d 0 2) (d 2 0)
    rw [abs_neg, abs_one] at b
    refine le_trans (le_of_eq ?_) (b.trans (le_of_eq (by simp; norm_num)))
    simp only [derV, Fin.mk_one, Matrix.cons_val_one, Matrix.cons_val_zero]
    rw [← c1, (hD 0).2.2, (hD 2).1]
    congr 1
    ring
  · have b := lin2 (a := 1) (b := -(1 / p 0)) (d 1 0) (d 0 1)
    rw [abs_neg, abs_one] at b
    refine le_trans (le_of_eq ?_) b
    simp only [derV, Fin.reduceFinMk, Matrix.cons_val]
    rw [← c2, (hD 1).1, (hD 0).2.1]
    congr 1
    simp
    field_simp
    ring

end Verif.Field
