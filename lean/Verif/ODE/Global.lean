import Verif.ODE.Local
import Mathlib.Analysis.Calculus.BumpFunction.FiniteDimension
import Mathlib.Analysis.SpecialFunctions.Exp

/-!
# The global error of an explicit Runge–Kutta method

Internal machinery: a local error of order `p + 1` and a Lipschitz step give a global error of order
`p`, first for right-hand sides with bounded derivatives, then for all smooth ones.
-/

set_option autoImplicit false

namespace Verif.ODE

open Asymptotics

variable {E : Type*} [NormedAddCommGroup E] [NormedSpace ℝ E]

variable {ι : Type*} [Fintype ι]

/-- A step of a method whose weights may differ between the components of the state. -/
noncomputable def prkStep (F : ℝ × (ι → ℝ) → (ι → ℝ)) (s : ℕ) (a : ℕ → ℕ → ℝ) (b : ι → ℕ → ℝ)
    (c : ℕ → ℝ) (t : ℝ) (x : ι → ℝ) (h : ℝ) : ι → ℝ :=
  fun m => rkStep F s a (b m) c t x h m

/-- `k` steps of size `h` from `(t, x)`. -/
noncomputable def prkIter (F : ℝ × (ι → ℝ) → (ι → ℝ)) (s : ℕ) (a : ℕ → ℕ → ℝ) (b : ι → ℕ → ℝ)
    (c : ℕ → ℝ) (t : ℝ) (x : ι → ℝ) (h : ℝ) : ℕ → ι → ℝ
  | 0 => x
  | k + 1 => prkStep F s a b c (t + k * h) (prkIter F s a b c t x h k) h

theorem lipschitz_of_bound {F : ℝ × E → E} {M : ℝ} (hF : Differentiable ℝ F)
    (hM : ∀ z, ‖iteratedFDeriv ℝ 1 F z‖ ≤ M) (z z' : ℝ × E) : ‖F z - F z'‖ ≤ M * ‖z - z'‖ := by
  refine Convex.norm_image_sub_le_of_norm_fderiv_le (𝕜 := ℝ) (fun x _ => hF x) (fun x _ => ?_)
    convex_univ (Set.mem_univ _) (Set.mem_univ _)
  have := hM x
  rwa [norm_iteratedFDeriv_one] at this

/-- The stages depend on the state in a Lipschitz way, uniformly for bounded steps. -/
theorem rkStage_lip {F : ℝ × E → E} {M : ℝ} (hF : Differentiable ℝ F)
    (hM : ∀ z, ‖iteratedFDeriv ℝ 1 F z‖ ≤ M) (a : ℕ → ℕ → ℝ) (c : ℕ → ℝ) {H : ℝ} (i : ℕ) :
    ∃ L, 0 ≤ L ∧ ∀ t x x' h, 0 ≤ h → h ≤ H →
      ‖rkStage F a c t x h i - rkStage F a c t x' h i‖ ≤ L * ‖x - x'‖ := by
  have hM0 : 0 ≤ M := (norm_nonneg _).trans (hM 0)
  induction i using Nat.strong_induction_on with
  | _ i ih =>
    choose! L hL0 hL using ih
    by_cases hH : 0 ≤ H
    · refine ⟨M * (1 + H * ∑ j ∈ Finset.range i, |a i j| * L j), ?_, ?_⟩
      · refine mul_nonneg hM0 (add_nonneg zero_le_one (mul_nonneg hH (Finset.sum_nonneg fun j hj =>
          mul_nonneg (abs_nonneg _) (hL0 j (Finset.mem_range.mp hj)))))
      · intro t x x' h h0 hH'
        rw [rkStage_eq, rkStage_eq F a c t x']
        refine (lipschitz_of_bound hF hM _ _).trans ?_
        rw [mul_assoc]
        refine mul_le_mul_of_nonneg_left ?_ hM0
        rw [Prod.mk_sub_mk, sub_self, Prod.norm_def, norm_zero, max_eq_right (norm_nonneg _)]
        have e : x + h • ∑ j ∈ Finset.range i, a i j • rkStage F a c t x h j
              - (x' + h • ∑ j ∈ Finset.range i, a i j • rkStage F a c t x' h j)
            = (x - x') + h • ∑ j ∈ Finset.range i, a i j •
                (rkStage F a c t x h j - rkStage F a c t x' h j) := by
          simp only [smul_sub, Finset.sum_sub_distrib]; abel
        rw [e]
        refine (norm_add_le _ _).trans ?_
        rw [add_mul, one_mul]
        refine add_le_add_right ?_ _
        rw [norm_smul, Real.norm_of_nonneg h0, mul_assoc]
        have hs : ‖∑ j ∈ Finset.range i, a i j •
            (rkStage F a c t x h j - rkStage F a c t x' h j)‖
            ≤ (∑ j ∈ Finset.range i, |a i j| * L j) * ‖x - x'‖ := by
          rw [Finset.sum_mul]
          refine norm_sum_le_of_le _ fun j hj => ?_
          rw [norm_smul, Real.norm_eq_abs, mul_assoc]
          exact mul_le_mul_of_nonneg_left (hL j (Finset.mem_range.mp hj) t x x' h h0 hH')
            (abs_nonneg _)
        exact mul_le_mul hH' hs (norm_nonneg _) hH
    · exact ⟨0, le_rfl, fun t x x' h h0 h1 => absurd (h0.trans h1) hH⟩

theorem rkStep_lip {F : ℝ × E → E} {M : ℝ} (hF : Differentiable ℝ F)
    (hM : ∀ z, ‖iteratedFDeriv ℝ 1 F z‖ ≤ M) (s : ℕ) (a : ℕ → ℕ → ℝ) (b c : ℕ → ℝ) {H : ℝ} :
    ∃ L, 0 ≤ L ∧ ∀ t x x' h, 0 ≤ h → h ≤ H →
      ‖rkStep F s a b c t x h - rkStep F s a b c t x' h‖ ≤ (1 + h * L) * ‖x - x'‖ := by
  choose L hL0 hL using fun i => rkStage_lip hF hM a c (H := H) i
  refine ⟨∑ i ∈ Finset.range s, |b i| * L i,
    Finset.sum_nonneg fun i _ => mul_nonneg (abs_nonneg _) (hL0 i), fun t x x' h h0 h1 => ?_⟩
  have e : rkStep F s a b c t x h - rkStep F s a b c t x' h
      = (x - x') + h • ∑ i ∈ Finset.range s, b i •
          (rkStage F a c t x h i - rkStage F a c t x' h i) := by
    simp only [rkStep, smul_sub, Finset.sum_sub_distrib]; abel
  rw [e]
  refine (norm_add_le _ _).trans ?_
  rw [add_mul, one_mul]
  refine add_le_add_right ?_ _
  rw [norm_smul, Real.norm_of_nonneg h0, mul_assoc]
  refine mul_le_mul_of_nonneg_left ?_ h0
  rw [Finset.sum_mul]
  refine norm_sum_le_of_le _ fun i _ => ?_
  rw [norm_smul, Real.norm_eq_abs, mul_assoc]
  exact mul_le_mul_of_nonneg_left (hL i t x x' h h0 h1) (abs_nonneg _)

theorem prkStep_lip {F : ℝ × (ι → ℝ) → (ι → ℝ)} {M : ℝ} (hF : Differentiable ℝ F)
    (hM : ∀ z, ‖iteratedFDeriv ℝ 1 F z‖ ≤ M) (s : ℕ) (a : ℕ → ℕ → ℝ) (b : ι → ℕ → ℝ) (c : ℕ → ℝ)
    {H : ℝ} :
    ∃ L, 0 ≤ L ∧ ∀ t x x' h, 0 ≤ h → h ≤ H →
      ‖prkStep F s a b c t x h - prkStep F s a b c t x' h‖ ≤ (1 + h * L) * ‖x - x'‖ := by
  choose L hL0 hL using fun m => rkStep_lip hF hM s a (b m) c (H := H)
  have hS : 0 ≤ ∑ m, L m := Finset.sum_nonneg fun m _ => hL0 m
  refine ⟨∑ m, L m, hS, fun t x x' h h0 h1 => ?_⟩
  rw [pi_norm_le_iff_of_nonneg (by positivity)]
  intro m
  have e := norm_le_pi_norm (rkStep F s a (b m) c t x h - rkStep F s a (b m) c t x' h) m
  refine e.trans ((hL m t x x' h h0 h1).trans ?_)
  refine mul_le_mul_of_nonneg_right ?_ (norm_nonneg _)
  have := Finset.single_le_sum (fun i _ => hL0 i) (Finset.mem_univ m)
  have := mul_le_mul_of_nonneg_left this h0
  linarith

theorem prk_local_error {F : ℝ × (ι → ℝ) → (ι → ℝ)} {n : ℕ} (hF : ContDiff ℝ (n + 1) F) {M : ℝ}
    (hM : ∀ j ≤ n + 1, ∀ z, ‖iteratedFDeriv ℝ j F z‖ ≤ M) {t₁ t₂ : ℝ} {y : ℝ → ι → ℝ}
    (hy : ∀ t ∈ Set.Icc t₁ t₂, HasDerivWithinAt y (F (t, y t)) (Set.Icc t₁ t₂) t)
    (s : ℕ) (a : ℕ → ℕ → ℝ) (b : ι → ℕ → ℝ) (c : ℕ → ℝ) {ε : ℝ} (hε : 0 ≤ ε)
    (hord : ∀ m, Order s a (b m) c (n + 1) ε) :
    ∃ C, 0 ≤ C ∧ ∀ t h, t₁ ≤ t → 0 ≤ h → t + h ≤ t₂ →
      ‖prkStep F s a b c t (y t) h - y (t + h)‖ ≤ C * (h ^ (n + 2) + ε * h) := by
  choose C hC0 hC using fun m => local_error hF hM hy s a (b m) c ε (hord m)
  have hS : 0 ≤ ∑ m, C m := Finset.sum_nonneg fun m _ => hC0 m
  refine ⟨∑ m, C m, hS, fun t h h1 h0 h2 => ?_⟩
  rw [pi_norm_le_iff_of_nonneg (by positivity)]
  intro m
  have e := norm_le_pi_norm (rkStep F s a (b m) c t (y t) h - y (t + h)) m
  refine e.trans ((hC m t h h1 h0 h2).trans ?_)
  exact mul_le_mul_of_nonneg_right (Finset.single_le_sum (fun i _ => hC0 i) (Finset.mem_univ m))
    (by positivity)

/-- Convergence for right-hand sides with bounded derivatives. -/
theorem global_error {F : ℝ × (ι → ℝ) → (ι → ℝ)} {n : ℕ} (hF : ContDiff ℝ (n + 1) F) {M : ℝ}
    (hM : ∀ j ≤ n + 1, ∀ z, ‖iteratedFDeriv ℝ j F z‖ ≤ M) {t₁ t₂ : ℝ} {y : ℝ → ι → ℝ}
    (hy : ∀ t ∈ Set.Icc t₁ t₂, HasDerivWithinAt y (F (t, y t)) (Set.Icc t₁ t₂) t)
    (s : ℕ) (a : ℕ → ℕ → ℝ) (b : ι → ℕ → ℝ) (c : ℕ → ℝ) {ε : ℝ} (hε : 0 ≤ ε)
    (hord : ∀ m, Order s a (b m) c (n + 1) ε) :
    ∃ C, 0 ≤ C ∧ ∀ t₀ h, t₁ ≤ t₀ → 0 ≤ h → ∀ k : ℕ, t₀ + k * h ≤ t₂ →
      ‖prkIter F s a b c t₀ (y t₀) h k - y (t₀ + k * h)‖ ≤ C * (k * h) * (h ^ (n + 1) + ε) := by
  obtain ⟨C, hC0, hC⟩ := prk_local_error hF hM hy s a b c hε hord
  obtain ⟨L, hL0, hL⟩ := prkStep_lip (hF.differentiable (by simp)) (hM 1 (by omega)) s a b c
    (H := t₂ - t₁)
  refine ⟨C * Real.exp (L * (t₂ - t₁)), by positivity, fun t₀ h ht₀ h0 => ?_⟩
  have main : ∀ k : ℕ, t₀ + k * h ≤ t₂ → ‖prkIter F s a b c t₀ (y t₀) h k - y (t₀ + k * h)‖
      ≤ C * (h ^ (n + 1) + ε) * ((k * h) * Real.exp (L * (k * h))) := by
    intro k
    induction k with
    | zero => intro _; simp [prkIter]
    | succ k ih =>
      intro hk
      have hk0 : 0 ≤ (k : ℝ) * h := by positivity
      have e : t₀ + ((k + 1 : ℕ) : ℝ) * h = t₀ + k * h + h := by push_cast; ring
      rw [e] at hk
      have ihk := ih (by linarith)
      have h1 := hC (t₀ + k * h) h (by linarith) h0 hk
      have h2 := hL (t₀ + k * h) (prkIter F s a b c t₀ (y t₀) h k) (y (t₀ + k * h)) h h0
        (by linarith)
      rw [prkIter, e]
      have hexp : 1 ≤ Real.exp (L * (((k + 1 : ℕ) : ℝ) * h)) := Real.one_le_exp (by positivity)
      have hexp2 : (1 + h * L) * Real.exp (L * (k * h))
          ≤ Real.exp (L * (((k + 1 : ℕ) : ℝ) * h)) := by
        have : L * (((k + 1 : ℕ) : ℝ) * h) = h * L + L * (k * h) := by push_cast; ring
        rw [this, Real.exp_add]
        exact mul_le_mul_of_nonneg_right (by linarith [Real.add_one_le_exp (h * L)])
          (Real.exp_pos _).le
      set D := C * (h ^ (n + 1) + ε) with hD
      have hD0 : 0 ≤ D := by positivity
      calc ‖prkStep F s a b c (t₀ + k * h) (prkIter F s a b c t₀ (y t₀) h k) h
              - y (t₀ + k * h + h)‖
          ≤ ‖prkStep F s a b c (t₀ + k * h) (prkIter F s a b c t₀ (y t₀) h k) h
              - prkStep F s a b c (t₀ + k * h) (y (t₀ + k * h)) h‖
            + ‖prkStep F s a b c (t₀ + k * h) (y (t₀ + k * h)) h - y (t₀ + k * h + h)‖ :=
            norm_sub_le_norm_sub_add_norm_sub _ _ _
        _ ≤ (1 + h * L) * (D * ((k * h) * Real.exp (L * (k * h))))
            + C * (h ^ (n + 2) + ε * h) := by
            refine add_le_add (h2.trans ?_) h1
            exact mul_le_mul_of_nonneg_left ihk (by positivity)
        _ = D * (k * h) * ((1 + h * L) * Real.exp (L * (k * h))) + D * h * 1 := by
            rw [hD]; ring
        _ ≤ D * (k * h) * Real.exp (L * (((k + 1 : ℕ) : ℝ) * h))
            + D * h * Real.exp (L * (((k + 1 : ℕ) : ℝ) * h)) :=
            add_le_add (mul_le_mul_of_nonneg_left hexp2 (by positivity))
              (mul_le_mul_of_nonneg_left hexp (by positivity))
        _ = D * ((((k + 1 : ℕ) : ℝ) * h) * Real.exp (L * (((k + 1 : ℕ) : ℝ) * h))) := by
            push_cast; ring
  intro k hk
  refine (main k hk).trans ?_
  have hk0 : 0 ≤ (k : ℝ) * h := by positivity
  have hexp : Real.exp (L * (k * h)) ≤ Real.exp (L * (t₂ - t₁)) :=
    Real.exp_le_exp.mpr (mul_le_mul_of_nonneg_left (by linarith) hL0)
  have h4 : 0 ≤ h ^ (n + 1) + ε := by positivity
  calc C * (h ^ (n + 1) + ε) * (k * h * Real.exp (L * (k * h)))
      ≤ C * (h ^ (n + 1) + ε) * (k * h * Real.exp (L * (t₂ - t₁))) :=
        mul_le_mul_of_nonneg_left (mul_le_mul_of_nonneg_left hexp hk0) (by positivity)
    _ = C * Real.exp (L * (t₂ - t₁)) * (k * h) * (h ^ (n + 1) + ε) := by ring

/-! ## Removing the bounds on the derivatives -/

/-- A smooth right-hand side agrees on any given ball with one whose derivatives are bounded. -/
theorem exists_cutoff [FiniteDimensional ℝ E] {F : ℝ × E → E} {p : ℕ} (hF : ContDiff ℝ p F)
    (R : ℝ) : ∃ F' : ℝ × E → E, ContDiff ℝ p F' ∧ (∀ z, ‖z‖ ≤ R → F' z = F z) ∧
      ∃ M, ∀ j ≤ p, ∀ z, ‖iteratedFDeriv ℝ j F' z‖ ≤ M := by
  let χ : ContDiffBump (0 : ℝ × E) := ⟨|R| + 1, |R| + 2, by positivity, by linarith⟩
  have hc : ContDiff ℝ p (fun z => χ z • F z) := χ.contDiff.smul hF
  have hs : HasCompactSupport (fun z => χ z • F z) := χ.hasCompactSupport.smul_right
  refine ⟨fun z => χ z • F z, hc, fun z hz => ?_, ?_⟩
  · have : χ z = 1 := χ.one_of_mem_closedBall (by
      rw [mem_closedBall_zero_iff]
      show ‖z‖ ≤ |R| + 1
      linarith [le_abs_self R])
    simp [this]
  · have hb : ∀ j, ∃ M, j ≤ p → ∀ z, ‖iteratedFDeriv ℝ j (fun z => χ z • F z) z‖ ≤ M := by
      intro j
      by_cases hj : j ≤ p
      · obtain ⟨M, hM⟩ := (hs.iteratedFDeriv (𝕜 := ℝ) j).exists_bound_of_continuous
          (hc.continuous_iteratedFDeriv (by exact_mod_cast hj))
        exact ⟨M, fun _ => hM⟩
      · exact ⟨0, fun h => absurd h hj⟩
    choose M hM using hb
    refine ⟨∑ j ∈ Finset.range (p + 1), |M j|, fun j hj z => (hM j hj z).trans ?_⟩
    exact (le_abs_self _).trans (Finset.single_le_sum (f := fun j => |M j|)
      (fun _ _ => abs_nonneg _) (Finset.mem_range.mpr (by omega)))

/-- The stages only look at the right-hand side near the current point. -/
theorem rkStage_local {F F' : ℝ × E → E} {M R : ℝ} (hM : ∀ z, ‖F' z‖ ≤ M)
    (hFF : ∀ z, ‖z‖ ≤ R → F' z = F z) (a : ℕ → ℕ → ℝ) (c : ℕ → ℝ) {t : ℝ} {x : E} {h : ℝ}
    (h0 : 0 ≤ h) (hz : ‖((t, x) : ℝ × E)‖ ≤ R - 1) (i : ℕ)
    (hb : ∀ j ≤ i, h * (|c j| + M * ∑ k ∈ Finset.range j, |a j k|) ≤ 1) :
    rkStage F a c t x h i = rkStage F' a c t x h i := by
  have hM0 : 0 ≤ M := (norm_nonneg _).trans (hM 0)
  induction i using Nat.strong_induction_on with
  | _ i ih =>
    have e : ∑ j ∈ Finset.range i, a i j • rkStage F a c t x h j
        = ∑ j ∈ Finset.range i, a i j • rkStage F' a c t x h j :=
      Finset.sum_congr rfl fun j hj => by
        have hj' := Finset.mem_range.mp hj
        rw [ih j hj' fun k hk => hb k (by omega)]
    rw [rkStage_eq, rkStage_eq, e]
    refine (hFF _ ?_).symm
    have hs : ‖∑ j ∈ Finset.range i, a i j • rkStage F' a c t x h j‖
        ≤ M * ∑ k ∈ Finset.range i, |a i k| := by
      rw [Finset.mul_sum]
      refine norm_sum_le_of_le _ fun j _ => ?_
      rw [norm_smul, Real.norm_eq_abs, mul_comm]
      refine mul_le_mul_of_nonneg_right ?_ (abs_nonneg _)
      rw [rkStage_eq]; exact hM _
    have e2 : ((t + c i * h, x + h • ∑ j ∈ Finset.range i, a i j • rkStage F' a c t x h j) : ℝ × E)
        = (t, x) + (c i * h, h • ∑ j ∈ Finset.range i, a i j • rkStage F' a c t x h j) := rfl
    rw [e2]
    have hs0 : 0 ≤ M * ∑ k ∈ Finset.range i, |a i k| :=
      mul_nonneg hM0 (Finset.sum_nonneg fun _ _ => abs_nonneg _)
    have h1 : ‖((c i * h, h • ∑ j ∈ Finset.range i, a i j • rkStage F' a c t x h j) : ℝ × E)‖
        ≤ 1 := by
      rw [Prod.norm_def]
      refine (max_le ?_ ?_).trans (hb i le_rfl)
      · dsimp only
        rw [Real.norm_eq_abs, abs_mul, abs_of_nonneg h0, mul_comm]
        exact mul_le_mul_of_nonneg_left (by linarith) h0
      · dsimp only
        rw [norm_smul, Real.norm_of_nonneg h0]
        exact mul_le_mul_of_nonneg_left (by linarith [abs_nonneg (c i)]) h0
    exact (norm_add_le _ _).trans (by linarith)

/-- **Convergence** of an explicit Runge–Kutta method of order `n + 1`, uniformly in the initial time
and for all sufficiently small steps. -/
theorem rk_converges {F : ℝ × (ι → ℝ) → (ι → ℝ)} {n : ℕ} (hF : ContDiff ℝ (n + 1) F)
    {t₁ t₂ : ℝ} {y : ℝ → ι → ℝ}
    (hy : ∀ t ∈ Set.Icc t₁ t₂, HasDerivWithinAt y (F (t, y t)) (Set.Icc t₁ t₂) t)
    (s : ℕ) (a : ℕ → ℕ → ℝ) (b : ι → ℕ → ℝ) (c : ℕ → ℝ) (hord : ∀ m, Order s a (b m) c (n + 1) 0) :
    ∃ C h₀, 0 < h₀ ∧ ∀ t₀ h, t₁ ≤ t₀ → 0 ≤ h → h ≤ h₀ → ∀ k : ℕ, t₀ + k * h ≤ t₂ →
      ‖prkIter F s a b c t₀ (y t₀) h k - y (t₀ + k * h)‖ ≤ C * (k * h) * h ^ (n + 1) := by
  -- the trajectory is bounded
  have hyc : ContinuousOn y (Set.Icc t₁ t₂) := fun t h => (hy t h).continuousWithinAt
  obtain ⟨B, hB⟩ := isCompact_Icc.exists_bound_of_continuousOn
    (f := fun t => ((t, y t) : ℝ × (ι → ℝ))) (continuousOn_id.prodMk hyc)
  obtain ⟨F', hF', hFF, M, hM⟩ := exists_cutoff (p := n + 1) (by exact_mod_cast hF) (B + 2)
  have hM' : ∀ z, ‖F' z‖ ≤ M := fun z => by simpa using hM 0 (Nat.zero_le _) z
  have hM0 : 0 ≤ M := (norm_nonneg _).trans (hM' 0)
  have hy' : ∀ t ∈ Set.Icc t₁ t₂, HasDerivWithinAt y (F' (t, y t)) (Set.Icc t₁ t₂) t := by
    intro t h
    rw [hFF _ ((hB t h).trans (by linarith))]
    exact hy t h
  obtain ⟨C, hC0, hC⟩ := global_error (by exact_mod_cast hF') hM hy' s a b c le_rfl hord
  -- how small the step must be
  set S := ∑ i ∈ Finset.range s, (|c i| + M * ∑ k ∈ Finset.range i, |a i k|) with hS
  have hS0 : ∀ i, 0 ≤ |c i| + M * ∑ k ∈ Finset.range i, |a i k| := fun i =>
    add_nonneg (abs_nonneg _) (mul_nonneg hM0 (Finset.sum_nonneg fun _ _ => abs_nonneg _))
  have hSnn : 0 ≤ S := Finset.sum_nonneg fun i _ => hS0 i
  have hT : 0 ≤ |t₂ - t₁| := abs_nonneg _
  have hden : 0 < 1 + S + C * |t₂ - t₁| := by positivity
  refine ⟨C, 1 / (1 + S + C * |t₂ - t₁|), by positivity, fun t₀ h ht₀ h0 hh => ?_⟩
  have hsm : h * (1 + S + C * |t₂ - t₁|) ≤ 1 := by rwa [le_div_iff₀ hden] at hh
  have hCT : 0 ≤ C * |t₂ - t₁| := by positivity
  have hh1 : h ≤ 1 := by nlinarith [mul_nonneg h0 hSnn, mul_nonneg h0 hCT]
  have hstage : ∀ i < s, h * (|c i| + M * ∑ k ∈ Finset.range i, |a i k|) ≤ 1 := by
    intro i hi
    have := Finset.single_le_sum (f := fun i => |c i| + M * ∑ k ∈ Finset.range i, |a i k|)
      (fun i _ => hS0 i) (Finset.mem_range.mpr hi)
    have h2 := mul_le_mul_of_nonneg_left this h0
    rw [← hS] at h2
    nlinarith [mul_nonneg h0 hCT]
  have herr : ∀ k : ℕ, t₀ + k * h ≤ t₂ →
      ‖prkIter F' s a b c t₀ (y t₀) h k - y (t₀ + k * h)‖ ≤ C * (k * h) * h ^ (n + 1) := by
    intro k hk
    have := hC t₀ h ht₀ h0 k hk
    rwa [add_zero] at this
  have hsmall : ∀ k : ℕ, t₀ + k * h ≤ t₂ → C * (k * h) * h ^ (n + 1) ≤ 1 := by
    intro k hk
    have hk0 : 0 ≤ (k : ℝ) * h := by positivity
    have h1 : h ^ (n + 1) ≤ h := by
      rw [pow_succ]
      have := pow_le_one₀ h0 hh1 (n := n)
      nlinarith
    have h2 : (k : ℝ) * h ≤ |t₂ - t₁| := le_trans (by linarith) (le_abs_self _)
    calc C * (k * h) * h ^ (n + 1) ≤ C * |t₂ - t₁| * h :=
          mul_le_mul (mul_le_mul_of_nonneg_left h2 hC0) h1 (by positivity) (by positivity)
      _ ≤ 1 := by nlinarith [mul_nonneg h0 hSnn]
  have heq : ∀ k : ℕ, t₀ + k * h ≤ t₂ →
      prkIter F s a b c t₀ (y t₀) h k = prkIter F' s a b c t₀ (y t₀) h k := by
    intro k
    induction k with
    | zero => intro _; rfl
    | succ k ih =>
      intro hk
      have hk0 : 0 ≤ (k : ℝ) * h := by positivity
      have hk' : t₀ + k * h ≤ t₂ := by push_cast at hk; linarith
      rw [prkIter, prkIter, ih hk']
      funext m
      rw [prkStep, prkStep, rkStep, rkStep]
      refine congrFun ?_ m
      congr 2
      refine Finset.sum_congr rfl fun i hi => ?_
      have hi' := Finset.mem_range.mp hi
      congr 1
      refine rkStage_local hM' hFF a c h0 ?_ i fun j hj => hstage j (by omega)
      have e1 := herr k hk'
      have e2 := hB (t₀ + k * h) ⟨by linarith, hk'⟩
      have e3 : ((t₀ + k * h, prkIter F' s a b c t₀ (y t₀) h k) : ℝ × (ι → ℝ))
          = (t₀ + k * h, y (t₀ + k * h))
            + (0, prkIter F' s a b c t₀ (y t₀) h k - y (t₀ + k * h)) := by
        rw [Prod.mk_add_mk, add_zero, add_sub_cancel]
      rw [e3]
      refine (norm_add_le _ _).trans ?_
      have e4 : ‖((0 : ℝ), prkIter F' s a b c t₀ (y t₀) h k - y (t₀ + k * h))‖ ≤ 1 := by
        rw [Prod.norm_def, norm_zero, max_eq_right (norm_nonneg _)]
        exact e1.trans (hsmall k hk')
      linarith
  intro k hk
  rw [heq k hk]
  exact herr k hk

end Verif.ODE
