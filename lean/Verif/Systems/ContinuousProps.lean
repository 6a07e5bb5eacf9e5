import Mathlib.Tactic
import Mathlib.Analysis.Calculus.MeanValue
import Mathlib.Analysis.Calculus.Deriv.MeanValue
import Mathlib.Analysis.SpecialFunctions.Trigonometric.Deriv
import Mathlib.Analysis.Calculus.Deriv.Abs
import Verif.Systems.Continuous

/-!
# The classic continuous dynamical systems: properties
-/

set_option autoImplicit false

namespace Verif.Systems

/-! ## Specification -/

/-- Every entry of `J` is the partial derivative of `F` at `y`. -/
def IsJacobian {n : ℕ} (F : (Fin n → ℝ) → Fin n → ℝ) (J : Fin n → Fin n → ℝ) (y : Fin n → ℝ) : Prop :=
  ∀ i j, HasDerivAt (fun s => F (Function.update y j s) i) (J i j) (y j)

/-- `y` is a solution of the autonomous system `F`. -/
def Solves {n : ℕ} (F : (Fin n → ℝ) → Fin n → ℝ) (y : ℝ → Fin n → ℝ) : Prop := ∀ t i, HasDerivAt (fun t => y t i) (F (y t) i) t

/-! ## Cubic functions -/

/-- The cubic polynomial through the values at 0, 1, 2, 3. -/
noncomputable def lagrange (f : ℝ → ℝ) (s : ℝ) : ℝ :=
  f 0 + s * (f 1 - f 0) + s * (s - 1) / 2 * (f 2 - 2 * f 1 + f 0) + s * (s - 1) * (s - 2) / 6 * (f 3 - 3 * f 2 + 3 * f 1 - f 0)

theorem cubic {f : ℝ → ℝ} {J x : ℝ} (h : ∀ s, f s = lagrange f s) (hJ : J = (8 * (f (x + 1) - f (x - 1)) - (f (x + 2) - f (x - 2))) / 12) : HasDerivAt f J x := by
  obtain ⟨a, b, c, d, hf⟩ : ∃ a b c d : ℝ, ∀ s, f s = a + b * s + c * s ^ 2 + d * s ^ 3 := by
    refine ⟨f 0, (f 1 - f 0) - (f 2 - 2 * f 1 + f 0) / 2 + (f 3 - 3 * f 2 + 3 * f 1 - f 0) / 3,
      (f 2 - 2 * f 1 + f 0) / 2 - (f 3 - 3 * f 2 + 3 * f 1 - f 0) / 2, (f 3 - 3 * f 2 + 3 * f 1 - f 0) / 6, fun s => ?_⟩
    rw [h s, lagrange]; ring
  have e : f = fun s => a + b * s + c * s ^ 2 + d * s ^ 3 := funext hf
  have h1 : HasDerivAt f (b + c * (2 * x) + d * (3 * x ^ 2)) x := by
    rw [e]
    have h0 := hasDerivAt_id x
    have h2 := (((h0.const_mul b).const_add a).add ((hasDerivAt_pow 2 x).const_mul c)).add ((hasDerivAt_pow 3 x).const_mul d)
    refine (h2.congr_deriv ?_).congr_of_eventuallyEq (Filter.Eventually.of_forall (fun s => ?_))
    · simp
    · simp
  refine h1.congr_deriv ?_
  rw [hJ, hf, hf, hf, hf]; ring

/-! ## The analytical Jacobians -/

/-- **C130.** Lorenz: the Jacobian is the derivative, and its trace is what `getDivergence` returns. -/
theorem lorenz_jacobian (σ ρ β : ℝ) (y : Fin 3 → ℝ) : IsJacobian (Lorenz.derivs σ ρ β) (Lorenz.jacobian σ ρ β y) y ∧
    ∑ i, Lorenz.jacobian σ ρ β y i i = Lorenz.divergence σ β := by
  constructor
  · intro i j
    fin_cases i <;> fin_cases j <;>
      (apply cubic <;> simp [Lorenz.derivs, Lorenz.jacobian, lagrange, Function.update_apply] <;> intros <;> first | ring1 | (right; ring1))
  · rw [Fin.sum_univ_three]
    simp [Lorenz.jacobian, Lorenz.divergence]; ring

/-- **C130.** Rössler. -/
theorem rossler_jacobian (a b c : ℝ) (y : Fin 3 → ℝ) : IsJacobian (Rossler.derivs a b c) (Rossler.jacobian a c y) y := by
  intro i j
  fin_cases i <;> fin_cases j <;>
    (apply cubic <;> simp [Rossler.derivs, Rossler.jacobian, lagrange, Function.update_apply] <;> intros <;> first | ring1 | (right; ring1))

/-- **C130.** Van der Pol. -/
theorem vanDerPol_jacobian (μ : ℝ) (y : Fin 2 → ℝ) : IsJacobian (VanDerPol.derivs μ) (VanDerPol.jacobian μ y) y := by
  intro i j
  fin_cases i <;> fin_cases j <;>
    (apply cubic <;> simp [VanDerPol.derivs, VanDerPol.jacobian, lagrange, Function.update_apply] <;> intros <;> first | ring1 | (right; ring1))

/-- **C130.** Duffing. -/
theorem duffing_jacobian (δ α β γ ω : ℝ) (y : Fin 3 → ℝ) : IsJacobian (Duffing.derivs δ α β γ ω) (Duffing.jacobian δ α β γ y) y := by
  intro i j
  by_cases h : i = 1 ∧ j = 2
  · obtain ⟨rfl, rfl⟩ := h
    have := ((Real.hasDerivAt_cos (y 2)).const_mul γ).const_add (-δ * y 1 - α * y 0 - β * y 0 * y 0 * y 0)
    simp only [Duffing.derivs, Duffing.jacobian]
    simpa using this
  · fin_cases i <;> fin_cases j <;> first | (exact absurd ⟨rfl, rfl⟩ h) |
      (apply cubic <;> simp [Duffing.derivs, Duffing.jacobian, lagrange, Function.update_apply] <;> intros <;> first | ring1 | (right; ring1))

/-- **C130.** Chua, where the nonlinearity has no corner. -/
theorem chua_jacobian (α β a b : ℝ) (y : Fin 3 → ℝ) (h1 : y 0 ≠ 1) (h2 : y 0 ≠ -1) : IsJacobian (Chua.derivs α β a b) (Chua.jacobian α β a b y) y := by
  have hf : HasDerivAt (Chua.f a b) (Chua.slope a b (y 0)) (y 0) := by
    have hlin : ∀ k m : ℝ, HasDerivAt (fun x => k * x + m) k (y 0) := by
      intro k m
      simpa using ((hasDerivAt_id (y 0)).const_mul k).add_const m
    rw [Chua.slope]
    rcases lt_trichotomy (y 0) (-1) with h | h | h
    · rw [if_pos h]
      refine (hlin b (1 / 2 * (a - b) * (-2))).congr_of_eventuallyEq ?_
      filter_upwards [Iio_mem_nhds h] with x hx
      rw [Set.mem_Iio] at hx
      rw [Chua.f, abs_of_neg (by linarith), abs_of_neg (by linarith)]; ring
    · exact absurd h h2
    · rw [if_neg (by linarith)]
      rcases lt_trichotomy (y 0) 1 with h' | h' | h'
      · rw [if_neg (by linarith)]
        refine (hlin a 0).congr_of_eventuallyEq ?_
        filter_upwards [Ioo_mem_nhds h h'] with x hx
        obtain ⟨hx1, hx2⟩ := hx
        rw [Chua.f, abs_of_pos (by linarith), abs_of_neg (by linarith)]; ring
      · exact absurd h' h1
      · rw [if_pos h']
        refine (hlin b (1 / 2 * (a - b) * 2)).congr_of_eventuallyEq ?_
        filter_upwards [Ioi_mem_nhds h'] with x hx
        rw [Set.mem_Ioi] at hx
        rw [Chua.f, abs_of_pos (by linarith), abs_of_pos (by linarith)]; ring
  intro i j
  by_cases h : i = 0 ∧ j = 0
  · obtain ⟨rfl, rfl⟩ := h
    have := (((hasDerivAt_id (y 0)).const_sub (y 1)).sub hf).const_mul α
    simp only [Chua.derivs, Chua.jacobian]
    simpa using this
  · fin_cases i <;> fin_cases j <;> first | (exact absurd ⟨rfl, rfl⟩ h) |
      (apply cubic <;> simp [Chua.derivs, Chua.jacobian, lagrange, Function.update_apply] <;> intros <;> first | ring1 | (right; ring1))

/-- **C130.** At the corners the Chua system has no derivative, so no Jacobian can be right there. -/
theorem chua_corner {α β a b : ℝ} (hα : α ≠ 0) (hab : a ≠ b) (y : Fin 3 → ℝ) (h : y 0 = 1) (J : Fin 3 → Fin 3 → ℝ) : ¬ IsJacobian (Chua.derivs α β a b) J y := by
  intro hJ
  have h0 := hJ 0 0
  rw [h] at h0
  have e : (fun s => Chua.derivs α β a b (Function.update y 0 s) 0) = fun s => α * (y 1 - s - Chua.f a b s) := by
    funext s; simp [Chua.derivs]
  rw [e] at h0
  have hd : DifferentiableAt ℝ (fun x : ℝ => |x|) 0 := by
    have h1 : HasDerivAt (fun s : ℝ => s + 1) 1 0 := by simpa using (hasDerivAt_id (0 : ℝ)).add_const 1
    have h0' : HasDerivAt (fun s => α * (y 1 - s - Chua.f a b s)) (J 0 0) ((fun s : ℝ => s + 1) 0) := by simpa using h0
    have h2 := h0'.comp 0 h1
    have h3 : (fun x : ℝ => |x|) =ᶠ[nhds 0] fun s => (((fun s => α * (y 1 - s - Chua.f a b s)) ∘ fun s : ℝ => s + 1) s
        - α * (y 1 - (s + 1) - b * (s + 1) - 1 / 2 * (a - b) * (s + 2))) * (1 / (α * (1 / 2 * (a - b)))) := by
      filter_upwards [Ioi_mem_nhds (show (-1 : ℝ) < 0 by norm_num)] with s hs
      rw [Set.mem_Ioi] at hs
      have hab' : a - b ≠ 0 := sub_ne_zero.2 hab
      simp only [Function.comp, Chua.f]
      rw [show s + 1 + 1 = s + 2 by ring, show s + 1 - 1 = s by ring, abs_of_pos (show (0 : ℝ) < s + 2 by linarith)]
      field_simp
      ring
    refine DifferentiableAt.congr_of_eventuallyEq ?_ h3
    exact (h2.differentiableAt.sub (by fun_prop)).mul_const _
  exact not_differentiableAt_abs_zero hd

/-- **C130.** Hénon-Heiles; the flow keeps volumes. -/
theorem henonHeiles_jacobian (y : Fin 4 → ℝ) : IsJacobian HenonHeiles.derivs (HenonHeiles.jacobian y) y ∧ ∑ i, HenonHeiles.jacobian y i i = 0 := by
  constructor
  · intro i j
    fin_cases i <;> fin_cases j <;>
      (apply cubic <;> simp [HenonHeiles.derivs, HenonHeiles.jacobian, lagrange, Function.update_apply] <;> intros <;> first | ring1 | (right; ring1))
  · rw [Fin.sum_univ_four]
    simp [HenonHeiles.jacobian]

/-! ## Energy -/

/-- **C130.** Along every solution of the Hénon-Heiles system the invariant keeps its value. -/
theorem henonHeiles_energy {y : ℝ → Fin 4 → ℝ} (h : Solves HenonHeiles.derivs y) (t : ℝ) : HenonHeiles.energy (y t) = HenonHeiles.energy (y 0) := by
  have hd : ∀ t, HasDerivAt (fun t => HenonHeiles.energy (y t)) 0 t := by
    intro t
    have h0 := h t 0
    have h1 := h t 1
    have h2 := h t 2
    have h3 := h t 3
    have := ((((((h2.mul h2).add (h3.mul h3)).add (h0.mul h0)).add (h1.mul h1)).const_mul (1 / 2 : ℝ)).add ((h0.mul h0).mul h1)).sub (((h1.mul h1).mul h1).div_const 3)
    refine this.congr_deriv ?_
    simp [HenonHeiles.derivs]; ring
  exact is_const_of_deriv_eq_zero (fun t => (hd t).differentiableAt) (fun t => (hd t).deriv) t 0

/-- The equations of motion of the double pendulum, solved for the accelerations. -/
theorem pendulum_forces {p : Pendulum.P} (h1 : 0 < p.m1) (h2 : 0 ≤ p.m2) (h3 : 0 < p.L1) (h4 : 0 < p.L2) (y : Fin 4 → ℝ) :
    0 < Pendulum.den p y ∧
    (p.m1 + p.m2) * p.L1 * Pendulum.derivs p y 2 + p.m2 * Real.cos (y 0 - y 1) * p.L2 * Pendulum.derivs p y 3
      = - p.m2 * p.L2 * y 3 ^ 2 * Real.sin (y 0 - y 1) - (p.m1 + p.m2) * p.g * Real.sin (y 0) ∧
    p.L2 * Pendulum.derivs p y 3 + p.L1 * Real.cos (y 0 - y 1) * Pendulum.derivs p y 2 = p.L1 * y 2 ^ 2 * Real.sin (y 0 - y 1) - p.g * Real.sin (y 1) := by
  have hd : 0 < Pendulum.den p y := by
    have := Real.sin_sq_add_cos_sq (y 0 - y 1)
    rw [Pendulum.den]
    nlinarith [mul_nonneg h2 (sq_nonneg (Real.sin (y 0 - y 1)))]
  have e2 : Pendulum.derivs p y 2 = Pendulum.n1 p y / (p.L1 * Pendulum.den p y) := rfl
  have e3 : Pendulum.derivs p y 3 = Pendulum.n2 p y / (p.L2 * Pendulum.den p y) := rfl
  refine ⟨hd, ?_, ?_⟩
  · have hd' := hd.ne'
    rw [e2, e3]
    field_simp
    rw [Pendulum.n1, Pendulum.n2, Pendulum.den]
    ring
  · have hd' := hd.ne'
    rw [e2, e3]
    field_simp
    rw [Pendulum.n1, Pendulum.n2, Pendulum.den]
    ring

/-- **C130.** Along every solution of the double pendulum the invariant keeps its value. -/
theorem pendulum_energy {p : Pendulum.P} (h1 : 0 < p.m1) (h2 : 0 ≤ p.m2) (h3 : 0 < p.L1) (h4 : 0 < p.L2) {y : ℝ → Fin 4 → ℝ} (h : Solves (Pendulum.derivs p) y) (t : ℝ) :
    Pendulum.energy p (y t) = Pendulum.energy p (y 0) := by
  have hd : ∀ t, HasDerivAt (fun t => Pendulum.energy p (y t)) 0 t := by
    intro t
    have g0 := h t 0
    have g1 := h t 1
    have g2 := h t 2
    have g3 := h t 3
    obtain ⟨-, f1, f2⟩ := pendulum_forces h1 h2 h3 h4 (y t)
    have := ((((g2.const_mul (1 / 2 * (p.m1 + p.m2) * p.L1 * p.L1)).mul g2).add ((g3.const_mul (1 / 2 * p.m2 * p.L2 * p.L2)).mul g3)).add
      (((g2.const_mul (p.m2 * p.L1 * p.L2)).mul g3).mul (g0.sub g1).cos)).add ((g0.cos.const_mul (-(p.m1 + p.m2) * p.g * p.L1)).sub (g1.cos.const_mul (p.m2 * p.g * p.L2)))
    refine this.congr_deriv ?_
    have e0 : Pendulum.derivs p (y t) 0 = y t 2 := rfl
    have e1 : Pendulum.derivs p (y t) 1 = y t 3 := rfl
    rw [e0, e1]
    generalize Pendulum.derivs p (y t) 2 = a1 at *
    generalize Pendulum.derivs p (y t) 3 = a2 at *
    simp only [Pi.sub_apply, Pi.mul_apply]
    linear_combination (p.L1 * y t 2) * f1 + (p.m2 * p.L2 * y t 3) * f2
  exact is_const_of_deriv_eq_zero (fun t => (hd t).differentiableAt) (fun t => (hd t).deriv) t 0

/-- A non-trivial solution: the pendulum at rest, upside down at the second joint. -/
example : Solves (Pendulum.derivs ⟨1, 1, 1, 1, 9.80665⟩) (fun _ => ![0, Real.pi, 0, 0]) := by
  intro t i
  have : Pendulum.derivs ⟨1, 1, 1, 1, 9.80665⟩ ![0, Real.pi, 0, 0] i = 0 := by
    fin_cases i <;> simp [Pendulum.derivs, Pendulum.n1, Pendulum.n2]
  rw [this]
  exact hasDerivAt_const t _

/-- A non-trivial solution of the Hénon-Heiles system: at rest in the saddle at the top of the triangle. -/
example : Solves HenonHeiles.derivs (fun _ => ![0, 1, 0, 0]) := by
  intro t i
  have : HenonHeiles.derivs ![0, 1, 0, 0] i = 0 := by
    fin_cases i <;> simp [HenonHeiles.derivs]
  rw [this]
  exact hasDerivAt_const t _

/-! ## The numerical Jacobian -/

/-- **C130.** The default numerical Jacobian is exact for systems of degree at most two in each coordinate. -/
theorem numJacobian_exact {n : ℕ} {eps : ℝ} (he : 0 < eps) (F : (Fin n → ℝ) → Fin n → ℝ) (x : Fin n → ℝ)
    (hF : ∀ i j, ∃ a b c : ℝ, ∀ s, F (Function.update x j s) i = a + b * s + c * s ^ 2) : IsJacobian F (numJacobian eps F x) x := by
  intro i j
  obtain ⟨a, b, c, h⟩ := hF i j
  have hs : 0 < step eps (x j) := mul_pos he (lt_max_of_lt_right one_pos)
  have e : (fun s => F (Function.update x j s) i) = fun s => a + b * s + c * s ^ 2 := funext h
  have hd : HasDerivAt (fun s => a + b * s + c * s ^ 2) (b + c * (2 * x j)) (x j) := by
    have h2 := (((hasDerivAt_id (x j)).const_mul b).const_add a).add ((hasDerivAt_pow 2 (x j)).const_mul c)
    refine (h2.congr_deriv (by simp)).congr_of_eventuallyEq (Filter.Eventually.of_forall (fun s => by simp))
  rw [e]
  refine hd.congr_deriv ?_
  have hs' := hs.ne'
  rw [numJacobian, h, h]
  field_simp
  ring

/-- A non-trivial case: Lorenz, so there the two Jacobians agree. -/
example (σ ρ β : ℝ) (x : Fin 3 → ℝ) : numJacobian (1 / 2 ^ 26) (Lorenz.derivs σ ρ β) x = Lorenz.jacobian σ ρ β x := by
  funext i j
  refine (numJacobian_exact (by norm_num) (Lorenz.derivs σ ρ β) x (fun i j => ?_) i j).unique ((lorenz_jacobian σ ρ β x).1 i j)
  fin_cases i <;> fin_cases j
  · exact ⟨σ * x 1, -σ, 0, fun s => by simp [Lorenz.derivs, Function.update_apply]; ring⟩
  · exact ⟨-σ * x 0, σ, 0, fun s => by simp [Lorenz.derivs, Function.update_apply]; ring⟩
  · exact ⟨σ * (x 1 - x 0), 0, 0, fun s => by simp [Lorenz.derivs, Function.update_apply]⟩
  · exact ⟨-x 1, ρ - x 2, 0, fun s => by simp [Lorenz.derivs, Function.update_apply]; ring⟩
  · exact ⟨x 0 * (ρ - x 2), -1, 0, fun s => by simp [Lorenz.derivs, Function.update_apply]; ring⟩
  · exact ⟨x 0 * ρ - x 1, -x 0, 0, fun s => by simp [Lorenz.derivs, Function.update_apply]; ring⟩
  · exact ⟨-β * x 2, x 1, 0, fun s => by simp [Lorenz.derivs, Function.update_apply]; ring⟩
  · exact ⟨-β * x 2, x 0, 0, fun s => by simp [Lorenz.derivs, Function.update_apply]; ring⟩
  · exact ⟨x 0 * x 1, -β, 0, fun s => by simp [Lorenz.derivs, Function.update_apply]; ring⟩

/-- The forward differences of the double pendulum are exact only up to the step: an entry is the slope of a chord, so by the mean value theorem
the derivative at some point within the step. -/
theorem pendulum_jacobian {p : Pendulum.P} (h1 : 0 < p.m1) (h2 : 0 ≤ p.m2) (h3 : 0 < p.L1) (h4 : 0 < p.L2) (y : Fin 4 → ℝ) (i j : Fin 4) :
    ∃ s, y j < s ∧ s < y j + 1 / 10 ^ 6 ∧ HasDerivAt (fun s => Pendulum.derivs p (Function.update y j s) i) (Pendulum.jacobian p y i j) s := by
  have hdiff : ∀ s, DifferentiableAt ℝ (fun s => Pendulum.derivs p (Function.update y j s) i) s := by
    intro s
    have hu : ∀ k, DifferentiableAt ℝ (fun s : ℝ => Function.update y j s k) s := by
      intro k
      by_cases hk : k = j
      · subst hk; simp only [Function.update_self]; exact differentiableAt_id
      · simp only [Function.update_of_ne hk]; exact differentiableAt_const _
    have hden : ∀ z, Pendulum.den p z ≠ 0 := fun z => (pendulum_forces h1 h2 h3 h4 z).1.ne'
    have hc : DifferentiableAt ℝ (fun s : ℝ => Real.cos (Function.update y j s 0 - Function.update y j s 1)) s := ((hu 0).sub (hu 1)).cos
    have hs : DifferentiableAt ℝ (fun s : ℝ => Real.sin (Function.update y j s 0 - Function.update y j s 1)) s := ((hu 0).sub (hu 1)).sin
    have hs0 : DifferentiableAt ℝ (fun s : ℝ => Real.sin (Function.update y j s 0)) s := (hu 0).sin
    have hs1 : DifferentiableAt ℝ (fun s : ℝ => Real.sin (Function.update y j s 1)) s := (hu 1).sin
    have hD : DifferentiableAt ℝ (fun s : ℝ => Pendulum.den p (Function.update y j s)) s := by
      simp only [Pendulum.den]
      exact ((hc.const_mul p.m2).mul hc).const_sub _
    have h2' := hu 2
    have h3' := hu 3
    fin_cases i
    · exact hu 2
    · exact hu 3
    · refine DifferentiableAt.div ?_ (hD.const_mul p.L1) (mul_ne_zero h3.ne' (hden _))
      simp only [Pendulum.n1]
      exact (((((((h2'.const_mul (-p.m2 * p.L1)).mul h2').mul hs).mul hc).add ((hs1.const_mul (p.m2 * p.g)).mul hc)).sub
        (((h3'.const_mul (p.m2 * p.L2)).mul h3').mul hs)).sub (hs0.const_mul ((p.m1 + p.m2) * p.g)))
    · refine DifferentiableAt.div ?_ (hD.const_mul p.L2) (mul_ne_zero h4.ne' (hden _))
      simp only [Pendulum.n2]
      exact ((((h3'.const_mul (p.m2 * p.L2)).mul h3').mul hs).mul hc).add
        (((((hs0.const_mul p.g).mul hc).add (((h2'.const_mul p.L1).mul h2').mul hs)).sub (hs1.const_mul p.g)).const_mul (p.m1 + p.m2))
  obtain ⟨s, hs, he⟩ := exists_deriv_eq_slope (fun s => Pendulum.derivs p (Function.update y j s) i) (a := y j) (b := y j + 1 / 10 ^ 6) (by norm_num)
    (fun s _ => (hdiff s).continuousAt.continuousWithinAt) (fun s _ => (hdiff s).differentiableWithinAt)
  refine ⟨s, hs.1, hs.2, ?_⟩
  have := (hdiff s).hasDerivAt
  rw [he] at this
  refine this.congr_deriv ?_
  rw [Pendulum.jacobian, Function.update_eq_self, add_sub_cancel_left]

/-! ## Parameters -/

/-- **C130.** A parameter that was set is read back, and the others keep their values. -/
theorem param_roundtrip {ps : List ℝ} {i k : ℤ} {v : ℝ} (hi : 0 ≤ i ∧ i.toNat < ps.length) : ∃ qs, setParam ps i v = .ret qs ∧ qs.length = ps.length ∧
    getParam qs i = .ret v ∧ (k ≠ i → getParam qs k = getParam ps k) := by
  refine ⟨_, by rw [setParam, if_pos hi], by simp, ?_, fun hk => ?_⟩
  · rw [getParam, if_pos hi.1, List.getElem?_set_self hi.2]
  · rw [getParam, getParam]
    by_cases h0 : 0 ≤ k
    · rw [if_pos h0, if_pos h0, List.getElem?_set_ne (by omega)]
    · rw [if_neg h0, if_neg h0]

/-- **C130.** Parameters set as a vector are read back. -/
theorem params_roundtrip {ps v : List ℝ} (h : v.length = ps.length) : ∃ qs, setParams ps v = .ret qs ∧ getParams qs = v := by
  refine ⟨v.take ps.length, by rw [setParams, if_neg (by omega)], ?_⟩
  rw [getParams, ← h, List.take_length]

example : (0 : ℤ) ≤ 1 ∧ (1 : ℤ).toNat < [10, 28, 8 / 3].length := by decide

end Verif.Systems
