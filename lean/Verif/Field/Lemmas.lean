import Verif.Field.Model
import Verif.Coord.VecProps
import Verif.Coord.Props
import Mathlib.Analysis.Calculus.Deriv.Pi
import Mathlib.Analysis.Calculus.Deriv.Prod
import Mathlib.Tactic

/-!
# Derivatives of fields in moving frames (C104)

The specification: derivatives in Cartesian coordinates, and fields written in cylindrical and spherical coordinates.  Then the chain rule for them.
-/

set_option autoImplicit false

namespace Verif.Field

open Deriv Coord

/-! ## Specification -/

section

variable {N : ℕ}

/-- The partial derivative of a function of Cartesian coordinates. -/
noncomputable def partial' (F : (Fin N → ℝ) → ℝ) (i : Fin N) (x : Fin N → ℝ) : ℝ := fderiv ℝ F x (Pi.single i 1)

/-- The Laplacian. -/
noncomputable def lap (F : (Fin N → ℝ) → ℝ) (x : Fin N → ℝ) : ℝ := ∑ i, partial' (partial' F i) i x

/-- The divergence of a field with Cartesian components `W`. -/
noncomputable def div' (W : (Fin N → ℝ) → Fin N → ℝ) (x : Fin N → ℝ) : ℝ := ∑ i, partial' (fun y => W y i) i x

/-- The curl of a field with Cartesian components `W`. -/
noncomputable def curl (W : (Fin 3 → ℝ) → Fin 3 → ℝ) (x : Fin 3 → ℝ) : Fin 3 → ℝ :=
  ![partial' (fun y => W y 2) 1 x - partial' (fun y => W y 1) 2 x, partial' (fun y => W y 0) 2 x - partial' (fun y => W y 2) 0 x,
    partial' (fun y => W y 1) 0 x - partial' (fun y => W y 0) 1 x]

end

/-- The Cartesian position of the point with spherical coordinates `(r, θ, φ)`. -/
noncomputable def sph (p : Fin 3 → ℝ) : Fin 3 → ℝ :=
  ![p 0 * Real.sin (p 1) * Real.cos (p 2), p 0 * Real.sin (p 1) * Real.sin (p 2), p 0 * Real.cos (p 1)]

/-- The unit vectors of spherical coordinates, in the directions of growing `r`, `θ` and `φ`. -/
noncomputable def sphE (i : Fin 3) (p : Fin 3 → ℝ) : Fin 3 → ℝ :=
  ![![Real.sin (p 1) * Real.cos (p 2), Real.sin (p 1) * Real.sin (p 2), Real.cos (p 1)],
    ![Real.cos (p 1) * Real.cos (p 2), Real.cos (p 1) * Real.sin (p 2), -Real.sin (p 1)],
    ![-Real.sin (p 2), Real.cos (p 2), 0]] i

/-- The Cartesian position of the point with cylindrical coordinates `(r, φ, z)`. -/
noncomputable def cyl (p : Fin 3 → ℝ) : Fin 3 → ℝ := ![p 0 * Real.cos (p 1), p 0 * Real.sin (p 1), p 2]

/-- The unit vectors of cylindrical coordinates, in the directions of growing `r`, `φ` and `z`. -/
noncomputable def cylE (i : Fin 3) (p : Fin 3 → ℝ) : Fin 3 → ℝ :=
  ![![Real.cos (p 1), Real.sin (p 1), 0], ![-Real.sin (p 1), Real.cos (p 1), 0], ![0, 0, 1]] i

/-- The components, in the moving frame `E`, of the field with Cartesian components `W`, as functions of the coordinates. -/
noncomputable def comps (S : (Fin 3 → ℝ) → Fin 3 → ℝ) (E : Fin 3 → (Fin 3 → ℝ) → Fin 3 → ℝ) (W : (Fin 3 → ℝ) → Fin 3 → ℝ) (p : Fin 3 → ℝ) (i : Fin 3) : ℝ :=
  W (S p) ⬝ᵥ E i p

/-! ## Frames -/

/-- An orthonormal right-handed frame. -/
structure Frame (e : Fin 3 → Fin 3 → ℝ) : Prop where
  complete : ∀ k l, ∑ i, e i k * e i l = if k = l then 1 else 0
  cross : e 0 = crossProduct (e 1) (e 2) ∧ e 1 = crossProduct (e 2) (e 0) ∧ e 2 = crossProduct (e 0) (e 1)

theorem sphE_frame (p : Fin 3 → ℝ) : Frame fun i => sphE i p := by
  have h1 := Real.sin_sq_add_cos_sq (p 1)
  have h2 := Real.sin_sq_add_cos_sq (p 2)
  refine ⟨fun k l => ?_, ?_, ?_, ?_⟩
  · fin_cases k <;> fin_cases l <;> simp [sphE, Fin.sum_univ_three] <;>
      generalize Real.sin (p 1) = a at * <;> generalize Real.cos (p 1) = b at * <;> generalize Real.sin (p 2) = c at * <;> generalize Real.cos (p 2) = d at *
    · linear_combination d ^ 2 * h1 + h2
    · linear_combination d * c * h1
    · ring
    · linear_combination d * c * h1
    · linear_combination c ^ 2 * h1 + h2
    · ring
    · ring
    · ring
    · linear_combination h1
  all_goals
    ext k
    fin_cases k <;> simp [sphE, cross_apply] <;>
      generalize Real.sin (p 1) = a at * <;> generalize Real.cos (p 1) = b at * <;> generalize Real.sin (p 2) = c at * <;> generalize Real.cos (p 2) = d at *
  all_goals first
    | done
    | ring1
    | linear_combination -b * h2
    | linear_combination b * h2
    | linear_combination a * h2
    | linear_combination -a * h2
    | linear_combination -d * h1
    | linear_combination d * h1
    | linear_combination c * h1
    | linear_combination -c * h1

theorem cylE_frame (p : Fin 3 → ℝ) : Frame fun i => cylE i p := by
  have h1 := Real.sin_sq_add_cos_sq (p 1)
  refine ⟨fun k l => ?_, ?_, ?_, ?_⟩
  · fin_cases k <;> fin_cases l <;> simp [cylE, Fin.sum_univ_three] <;>
      generalize Real.sin (p 1) = a at * <;> generalize Real.cos (p 1) = b at *
    all_goals first
      | ring1
      | linear_combination h1
  all_goals
    ext k
    fin_cases k <;> simp [cylE, cross_apply] <;>
      generalize Real.sin (p 1) = a at * <;> generalize Real.cos (p 1) = b at *
  all_goals first
    | ring1
    | linear_combination h1
    | linear_combination -h1

/-! ## Coordinate systems -/

/-- What is needed of a coordinate system with position `S`, unit vectors `E` and scales `h`: `γ j i` is the derivative of the unit vector `i` by coordinate `j`. -/
structure Sys (S : (Fin 3 → ℝ) → Fin 3 → ℝ) (E : Fin 3 → (Fin 3 → ℝ) → Fin 3 → ℝ) (h : Fin 3 → (Fin 3 → ℝ) → ℝ)
    (γ : Fin 3 → Fin 3 → (Fin 3 → ℝ) → Fin 3 → ℝ) : Prop where
  pos : ∀ p j, HasDerivAt (fun t => S (Function.update p j t)) (h j p • E j p) (p j)
  unit : ∀ p i j, HasDerivAt (fun t => E i (Function.update p j t)) (γ j i p) (p j)
  const : ∀ p i t, h i (Function.update p i t) = h i p
  diffS : Differentiable ℝ S
  diffE : ∀ i, Differentiable ℝ (E i)
  diffH : ∀ i, Differentiable ℝ (h i)

/-- The scales of spherical coordinates. -/
noncomputable def sphH (i : Fin 3) (p : Fin 3 → ℝ) : ℝ := ![1, p 0, p 0 * Real.sin (p 1)] i

/-- The derivatives of the unit vectors of spherical coordinates. -/
noncomputable def sphΓ (j i : Fin 3) (p : Fin 3 → ℝ) : Fin 3 → ℝ :=
  ![![0, 0, 0], ![sphE 1 p, -sphE 0 p, 0],
    ![Real.sin (p 1) • sphE 2 p, Real.cos (p 1) • sphE 2 p, -(Real.sin (p 1) • sphE 0 p + Real.cos (p 1) • sphE 1 p)]] j i

/-- The scales of cylindrical coordinates. -/
noncomputable def cylH (i : Fin 3) (p : Fin 3 → ℝ) : ℝ := ![1, p 0, 1] i

/-- The derivatives of the unit vectors of cylindrical coordinates. -/
noncomputable def cylΓ (j i : Fin 3) (p : Fin 3 → ℝ) : Fin 3 → ℝ := ![![0, 0, 0], ![cylE 1 p, -cylE 0 p, 0], ![0, 0, 0]] j i

theorem differentiable_vec3 {f : (Fin 3 → ℝ) → Fin 3 → ℝ} (h0 : Differentiable ℝ fun p => f p 0) (h1 : Differentiable ℝ fun p => f p 1) (h2 : Differentiable ℝ fun p => f p 2) :
    Differentiable ℝ f := by
  rw [differentiable_pi]
  intro i
  fin_cases i
  · exact h0
  · exact h1
  · exact h2

theorem hasDerivAt_vec3 {f : ℝ → Fin 3 → ℝ} {f' : Fin 3 → ℝ} {t : ℝ} (h0 : HasDerivAt (fun s => f s 0) (f' 0) t) (h1 : HasDerivAt (fun s => f s 1) (f' 1) t)
    (h2 : HasDerivAt (fun s => f s 2) (f' 2) t) : HasDerivAt f f' t := by
  rw [hasDerivAt_pi]
  intro i
  fin_cases i
  · exact h0
  · exact h1
  · exact h2

theorem cyl_sys : Sys cyl cylE cylH cylΓ := by
  have u : ∀ (p : Fin 3 → ℝ) (j k : Fin 3) (t : ℝ), Function.update p j t k = if k = j then t else p k := fun p j k t => Function.update_apply p j t k
  refine ⟨fun p j => ?_, fun p i j => ?_, fun p i t => ?_, ?_, fun i => ?_, fun i => ?_⟩
  · have c := Real.hasDerivAt_cos (p 1)
    have s := Real.hasDerivAt_sin (p 1)
    fin_cases j <;> refine hasDerivAt_vec3 ?_ ?_ ?_ <;> simp [cyl, cylE, cylH]
    · exact hasDerivAt_mul_const _
    · exact hasDerivAt_mul_const _
    · exact hasDerivAt_const _ _
    · simpa using c.const_mul (p 0)
    · exact s.const_mul (p 0)
    · exact hasDerivAt_const _ _
    · exact hasDerivAt_const _ _
    · exact hasDerivAt_const _ _
    · exact hasDerivAt_id _
  · have c := Real.hasDerivAt_cos (p 1)
    have s := Real.hasDerivAt_sin (p 1)
    fin_cases j <;> fin_cases i <;> refine hasDerivAt_vec3 ?_ ?_ ?_ <;> simp [cylE, cylΓ]
    all_goals first
      | exact hasDerivAt_const _ _
      | exact c
      | exact s
      | exact s.neg
      | skip
  · fin_cases i <;> simp [cylH]
  · refine differentiable_vec3 ?_ ?_ ?_ <;> simp only [cyl] <;> simp <;> fun_prop
  · fin_cases i <;> refine differentiable_vec3 ?_ ?_ ?_ <;> simp [cylE] <;> fun_prop
  · unfold cylH
    fin_cases i <;> simp <;> fun_prop

theorem sph_sys : Sys sph sphE sphH sphΓ := by
  refine ⟨fun p j => ?_, fun p i j => ?_, fun p i t => ?_, ?_, fun i => ?_, fun i => ?_⟩
  · have c := Real.hasDerivAt_cos (p 1)
    have s := Real.hasDerivAt_sin (p 1)
    have c2 := Real.hasDerivAt_cos (p 2)
    have s2 := Real.hasDerivAt_sin (p 2)
    fin_cases j <;> refine hasDerivAt_vec3 ?_ ?_ ?_ <;> simp [sph, sphE, sphH]
    · simpa [mul_assoc] using hasDerivAt_mul_const (x := p 0) (Real.sin (p 1) * Real.cos (p 2))
    · simpa [mul_assoc] using hasDerivAt_mul_const (x := p 0) (Real.sin (p 1) * Real.sin (p 2))
    · exact hasDerivAt_mul_const _
    · simpa [mul_assoc] using (s.const_mul (p 0)).mul_const (Real.cos (p 2))
    · simpa [mul_assoc] using (s.const_mul (p 0)).mul_const (Real.sin (p 2))
    · simpa using c.const_mul (p 0)
    · simpa using c2.const_mul (p 0 * Real.sin (p 1))
    · exact s2.const_mul (p 0 * Real.sin (p 1))
    · exact hasDerivAt_const _ _
  · have c := Real.hasDerivAt_cos (p 1)
    have s := Real.hasDerivAt_sin (p 1)
    have c2 := Real.hasDerivAt_cos (p 2)
    have s2 := Real.hasDerivAt_sin (p 2)
    have h1 := Real.sin_sq_add_cos_sq (p 1)
    fin_cases j <;> fin_cases i <;> refine hasDerivAt_vec3 ?_ ?_ ?_ <;> simp [sphE, sphΓ]
    all_goals first
      | exact hasDerivAt_const _ _
      | exact c
      | exact s
      | exact s.neg
      | exact s2.neg
      | exact c.neg
      | exact s.mul_const _
      | exact c.mul_const _
      | simpa using c.mul_const (Real.cos (p 2))
      | simpa using c.mul_const (Real.sin (p 2))
      | simpa using c2.const_mul (Real.sin (p 1))
      | exact s2.const_mul (Real.sin (p 1))
      | simpa using c2.const_mul (Real.cos (p 1))
      | exact s2.const_mul (Real.cos (p 1))
      | exact (hasDerivAt_const _ _).congr_deriv (by ring)
      | (refine c2.congr_deriv ?_; linear_combination (Real.sin (p 2)) * h1)
      | (refine s2.neg.congr_deriv ?_; linear_combination (Real.cos (p 2)) * h1)
      | skip
  · fin_cases i <;> simp [sphH]
  · refine differentiable_vec3 ?_ ?_ ?_ <;> simp only [sph] <;> simp <;> fun_prop
  · fin_cases i <;> refine differentiable_vec3 ?_ ?_ ?_ <;> simp [sphE] <;> fun_prop
  · unfold sphH
    fin_cases i <;> simp <;> fun_prop

/-! ## Derivatives by the coordinates -/

theorem fderiv_eq_sum (F : (Fin 3 → ℝ) → ℝ) (x v : Fin 3 → ℝ) : fderiv ℝ F x v = ∑ l, partial' F l x * v l := by
  conv_lhs => rw [pi_eq_sum_univ' v]
  rw [map_sum]
  refine Finset.sum_congr rfl fun l _ => ?_
  rw [map_smul, smul_eq_mul, mul_comm]
  congr 2

theorem partial_of_curve {f : (Fin 3 → ℝ) → ℝ} {p : Fin 3 → ℝ} {i : Fin 3} {d : ℝ} (hf : DifferentiableAt ℝ f p)
    (hd : HasDerivAt (fun t => f (Function.update p i t)) d (p i)) : partial' f i p = d := by
  have h : HasFDerivAt f (fderiv ℝ f p) (Function.update p i (p i)) := by
    rw [Function.update_eq_self]
    exact hf.hasFDerivAt
  exact (h.comp_hasDerivAt (p i) (hasDerivAt_update p i (p i))).unique hd

/-- The Jacobian of a vector field with partial derivatives `P k l`, in a frame. -/
def jac (P : Fin 3 → Fin 3 → ℝ) (e : Fin 3 → Fin 3 → ℝ) (i j : Fin 3) : ℝ := ∑ k, ∑ l, P k l * e i k * e j l

theorem partial_comps {S E h γ} (sys : Sys S E h γ) (W : (Fin 3 → ℝ) → Fin 3 → ℝ) (p : Fin 3 → ℝ) (hW : ∀ k, DifferentiableAt ℝ (fun y => W y k) (S p)) (i j : Fin 3) :
    partial' (fun q => comps S E W q i) j p = h j p * jac (fun k l => partial' (fun y => W y k) l (S p)) (fun i => E i p) i j + W (S p) ⬝ᵥ γ j i p := by
  have dS : DifferentiableAt ℝ S p := sys.diffS p
  have dW : ∀ k, DifferentiableAt ℝ (fun q => W (S q) k) p := fun k => (hW k).comp p dS
  have dE : ∀ k, DifferentiableAt ℝ (fun q => E i q k) p := fun k => (differentiableAt_pi.1 (sys.diffE i p)) k
  refine partial_of_curve ?_ ?_
  · simp only [comps, dotProduct]
    exact DifferentiableAt.fun_sum fun k _ => (dW k).mul (dE k)
  · have hc : ∀ k, HasDerivAt (fun t => W (S (Function.update p j t)) k) (∑ l, partial' (fun y => W y k) l (S p) * (h j p * E j p l)) (p j) := by
      intro k
      have h1 : HasFDerivAt (fun y => W y k) (fderiv ℝ (fun y => W y k) (S p)) (S (Function.update p j (p j))) := by
        rw [Function.update_eq_self]
        exact (hW k).hasFDerivAt
      have h2 := h1.comp_hasDerivAt (p j) (sys.pos p j)
      rw [fderiv_eq_sum] at h2
      exact h2
    have he := hasDerivAt_pi.1 (sys.unit p i j)
    have := HasDerivAt.fun_sum (u := Finset.univ) fun k _ => (hc k).mul (he k)
    simp only [comps, dotProduct]
    refine this.congr_deriv ?_
    simp only [Function.update_eq_self, jac, Finset.sum_add_distrib, Finset.mul_sum, Finset.sum_mul]
    congr 1
    refine Finset.sum_congr rfl fun k _ => Finset.sum_congr rfl fun l _ => ?_
    ring

theorem partial_scalar {S E h γ} (sys : Sys S E h γ) (F : (Fin 3 → ℝ) → ℝ) (p : Fin 3 → ℝ) (hF : DifferentiableAt ℝ F (S p)) (i : Fin 3) :
    partial' (fun q => F (S q)) i p = h i p * comps S E (fun y k => partial' F k y) p i := by
  refine partial_of_curve (hF.comp p (sys.diffS p)) ?_
  have h1 : HasFDerivAt F (fderiv ℝ F (S p)) (S (Function.update p i (p i))) := by
    rw [Function.update_eq_self]
    exact hF.hasFDerivAt
  have h2 := h1.comp_hasDerivAt (p i) (sys.pos p i)
  rw [fderiv_eq_sum] at h2
  refine h2.congr_deriv ?_
  simp only [comps, dotProduct, Pi.smul_apply, smul_eq_mul, Finset.mul_sum]
  exact Finset.sum_congr rfl fun k _ => by ring

theorem second_scalar {S E h γ} (sys : Sys S E h γ) (F : (Fin 3 → ℝ) → ℝ) (p : Fin 3 → ℝ) (hF : ContDiffAt ℝ 2 F (S p)) (i : Fin 3) :
    partial' (fun q => partial' (fun q => F (S q)) i q) i p = h i p * partial' (fun q => comps S E (fun y k => partial' F k y) q i) i p := by
  have dS : DifferentiableAt ℝ S p := sys.diffS p
  have hd : ∀ᶠ q in nhds p, DifferentiableAt ℝ F (S q) := by
    have := (hF.eventually (by simp)).mono fun y (hy : ContDiffAt ℝ 2 F y) => hy.differentiableAt (by norm_num)
    exact dS.continuousAt.eventually this
  have he : (fun q => partial' (fun q => F (S q)) i q) =ᶠ[nhds p] fun q => h i q * comps S E (fun y k => partial' F k y) q i := hd.mono fun q hq => partial_scalar sys F q hq i
  have hk : ∀ k, DifferentiableAt ℝ (fun y => partial' F k y) (S p) := by
    intro k
    have : ContDiffAt ℝ 1 (fderiv ℝ F) (S p) := hF.fderiv_right (by norm_num)
    exact (this.differentiableAt (by norm_num)).clm_apply (differentiableAt_const _)
  have dc : DifferentiableAt ℝ (fun q => comps S E (fun y k => partial' F k y) q i) p := by
    simp only [comps, dotProduct]
    exact DifferentiableAt.fun_sum fun k _ => ((hk k).comp p dS).mul (differentiableAt_pi.1 (sys.diffE i p) k)
  rw [partial', he.fderiv_eq]
  refine partial_of_curve ((sys.diffH i p).mul dc) ?_
  simp only [sys.const]
  refine HasDerivAt.const_mul _ ?_
  have h1 : HasFDerivAt (fun q => comps S E (fun y k => partial' F k y) q i) (fderiv ℝ (fun q => comps S E (fun y k => partial' F k y) q i) p) (Function.update p i (p i)) := by
    rw [Function.update_eq_self]
    exact dc.hasFDerivAt
  exact h1.comp_hasDerivAt (p i) (hasDerivAt_update p i (p i))

theorem jac_trace {P : Fin 3 → Fin 3 → ℝ} {e : Fin 3 → Fin 3 → ℝ} (he : Frame e) : jac P e 0 0 + jac P e 1 1 + jac P e 2 2 = P 0 0 + P 1 1 + P 2 2 := by
  have c := fun k l => he.complete k l
  simp only [Fin.sum_univ_three] at c
  have c00 := c 0 0
  have c01 := c 0 1
  have c02 := c 0 2
  have c10 := c 1 0
  have c11 := c 1 1
  have c12 := c 1 2
  have c20 := c 2 0
  have c21 := c 2 1
  have c22 := c 2 2
  simp at c00 c01 c02 c10 c11 c12 c20 c21 c22
  simp only [jac, Fin.sum_univ_three]
  linear_combination P 0 0 * c00 + P 0 1 * c01 + P 0 2 * c02 + P 1 0 * c10 + P 1 1 * c11 + P 1 2 * c12 + P 2 0 * c20 + P 2 1 * c21 + P 2 2 * c22

theorem jac_curl {P : Fin 3 → Fin 3 → ℝ} {e : Fin 3 → Fin 3 → ℝ} (he : Frame e) :
    jac P e 2 1 - jac P e 1 2 = ![P 2 1 - P 1 2, P 0 2 - P 2 0, P 1 0 - P 0 1] ⬝ᵥ e 0 ∧
    jac P e 0 2 - jac P e 2 0 = ![P 2 1 - P 1 2, P 0 2 - P 2 0, P 1 0 - P 0 1] ⬝ᵥ e 1 ∧
    jac P e 1 0 - jac P e 0 1 = ![P 2 1 - P 1 2, P 0 2 - P 2 0, P 1 0 - P 0 1] ⬝ᵥ e 2 := by
  refine ⟨?_, ?_, ?_⟩
  · rw [he.cross.1]
    simp [jac, dotProduct, Fin.sum_univ_three, cross_apply]
    ring
  · rw [he.cross.2.1]
    simp [jac, dotProduct, Fin.sum_univ_three, cross_apply]
    ring
  · rw [he.cross.2.2]
    simp [jac, dotProduct, Fin.sum_univ_three, cross_apply]
    ring

end Verif.Field
