import Verif.AD.Rules

/-!
# Forward-mode automatic differentiation: the derivatives are exact (C50)
-/

set_option autoImplicit false

namespace Verif.AD

open Verif Filter Topology

variable {n : ℕ}

theorem holds_locally {tiny : ℝ} {cmp : Cmp} {a b : Expr n} {x : Fin n → ℝ} (ha : Correct tiny a x) (hb : Correct tiny b x)
    (hne : a.fn x ≠ b.fn x) : ∀ᶠ y in 𝓝 x, cmp.holds (a.fn y) (b.fn y) = cmp.holds (a.fn x) (b.fn x) := by
  obtain ⟨L, hL, -⟩ := ha
  obtain ⟨M, hM, -⟩ := hb
  rcases hne.lt_or_gt with h | h
  · filter_upwards [hL.continuousAt.eventually_lt hM.continuousAt h] with y hy
    cases cmp <;> simp [Cmp.holds, hy.ne, h.ne, hy, h, hy.le, h.le, hy.not_gt, h.not_gt, hy.not_ge, h.not_ge]
  · filter_upwards [hM.continuousAt.eventually_lt hL.continuousAt h] with y hy
    cases cmp <;> simp [Cmp.holds, hy.ne', h.ne', hy, h, hy.le, h.le, hy.not_gt, h.not_gt, hy.not_ge, h.not_ge]

theorem fn_branch (cmp : Cmp) (a b yes no : Expr n) (x : Fin n → ℝ) :
    (Expr.branch cmp a b yes no).fn x = if cmp.holds (a.fn x) (b.fn x) then yes.fn x else no.fn x := by
  cases cmp <;> simp [Expr.fn, Cmp.holds]

theorem correct_of_smooth {tiny : ℝ} (ht : 0 < tiny) (e : Expr n) (x : Fin n → ℝ) (h : e.Smooth tiny x) :
    Correct tiny e x := by
  induction e with
  | var i => exact ⟨ContinuousLinearMap.proj i, (ContinuousLinearMap.proj (R := ℝ) (φ := fun _ : Fin n => ℝ) i).hasFDerivAt,
      fun d => rfl⟩
  | const c => exact ⟨0, hasFDerivAt_const c x, fun d => rfl⟩
  | add a b iha ihb => exact (iha h.1).binary (ihb h.2) (binary_add _ _) rfl fun _ => rfl
  | sub a b iha ihb => exact (iha h.1).binary (ihb h.2) (binary_sub _ _) rfl fun _ => rfl
  | mul a b iha ihb => exact (iha h.1).binary (ihb h.2) (binary_mul _ _) rfl fun _ => rfl
  | div a b iha ihb => exact (iha h.1).binary (ihb h.2.1) (binary_div h.2.2) rfl fun _ => rfl
  | neg a iha => exact (iha h).unary (unary_neg _) rfl fun _ => rfl
  | sqrt a iha => exact (iha h.1).unary (unary_sqrt h.2) rfl fun _ => rfl
  | pow a b iha ihb =>
    obtain ⟨h1, h2, h3⟩ := h
    rcases b with _ | c | _ | _ | _ | _ | _ | _ | _ | _ | _ | _ | _ | _ | _ | _ | _ | _ | _ | _ | _ | _ | _ | _ | _ | _ | _ | _ | _
    case const =>
      refine (iha h1).unary (op := fun u => u.powConst c) (unary_powConst (c := c) h3) rfl fun y => ?_
      simp only [Expr.dual, Outcome.bind_ret]
      congr 1
      funext u
      simp [Dual.pow, Dual.const]
    all_goals exact (iha h1).binary (ihb h2) (binary_pow h3) rfl fun _ => rfl
  | powConst a c iha => exact (iha h.1).unary (unary_powConst h.2) rfl fun _ => rfl
  | constPow c a iha => exact (iha h.1).unary (unary_constPow h.2) rfl fun _ => rfl
  | exp a iha => exact (iha h).unary (unary_exp _) rfl fun _ => rfl
  | log a iha => exact (iha h.1).unary (unary_log h.2) rfl fun _ => rfl
  | log10 a iha => exact (iha h.1).unary (unary_log10 h.2) rfl fun _ => rfl
  | sin a iha => exact (iha h).unary (unary_sin _) rfl fun _ => rfl
  | cos a iha => exact (iha h).unary (unary_cos _) rfl fun _ => rfl
  | tan a iha => exact (iha h.1).unary (unary_tan h.2) rfl fun _ => rfl
  | asin a iha => exact (iha h.1).unary (unary_asin ht h.2) rfl fun _ => rfl
  | acos a iha => exact (iha h.1).unary (unary_acos ht h.2) rfl fun _ => rfl
  | atan a iha => exact (iha h).unary (unary_atan _) rfl fun _ => rfl
  | sinh a iha => exact (iha h).unary (unary_sinh _) rfl fun _ => rfl
  | cosh a iha => exact (iha h).unary (unary_cosh _) rfl fun _ => rfl
  | tanh a iha => exact (iha h).unary (unary_tanh _) rfl fun _ => rfl
  | abs a iha => exact (iha h.1).unary (unary_abs h.2) rfl fun _ => rfl
  | floor a iha => exact (iha h.1).unary (unary_floor h.2) rfl fun _ => rfl
  | ceil a iha => exact (iha h.1).unary (unary_ceil h.2) rfl fun _ => rfl
  | atan2 a b iha ihb => exact (iha h.1).binary (ihb h.2.1) (binary_atan2 h.2.2) rfl fun _ => rfl
  | fma a b c iha ihb ihc =>
    have hab : Correct tiny (.mul a b) x := (iha h.1).binary (ihb h.2.1) (binary_mul _ _) rfl fun _ => rfl
    refine hab.binary (ihc h.2.2) (binary_add _ _) rfl fun y => ?_
    simp only [Expr.dual]
    cases a.dual tiny y with
    | ret u => cases b.dual tiny y <;> rfl
    | exn => rfl
    | ub => rfl
  | branch cmp a b yes no iha ihb ihy ihn =>
    obtain ⟨h1, h2, h3, h4, h5⟩ := h
    have ha := iha h1
    have hb := ihb h2
    have hl := holds_locally (cmp := cmp) ha hb h3
    obtain ⟨L, hL, hd⟩ := ha
    obtain ⟨M, hM, he⟩ := hb
    cases hc : cmp.holds (a.fn x) (b.fn x) with
    | true =>
      obtain ⟨T, hT, hy⟩ := ihy (h4 hc)
      refine ⟨T, hT.congr_of_eventuallyEq ?_, fun d => ?_⟩
      · filter_upwards [hl] with y hy'
        rw [fn_branch, hy', hc]; rfl
      · simp only [Expr.dual, hd, he, Outcome.bind_ret, hc, if_true, hy, fn_branch]
    | false =>
      obtain ⟨T, hT, hy⟩ := ihn (h5 hc)
      refine ⟨T, hT.congr_of_eventuallyEq ?_, fun d => ?_⟩
      · filter_upwards [hl] with y hy'
        rw [fn_branch, hy', hc]; rfl
      · simp [Expr.dual, hd, he, Outcome.bind_ret, hc, hy, fn_branch]

/-- **C50, propagation.**  Where every operation of a function is smooth, evaluating the function on duals, with any seeds,
does not fail and returns the function's value and its exact derivative along the seeds. -/
theorem dual_exact {tiny : ℝ} (ht : 0 < tiny) (e : Expr n) (x d : Fin n → ℝ) (h : e.Smooth tiny x) :
    DifferentiableAt ℝ e.fn x ∧
      e.dual tiny (fun i => ⟨x i, d i⟩) = .ret ⟨e.fn x, fderiv ℝ e.fn x d⟩ := by
  obtain ⟨L, hL, hd⟩ := correct_of_smooth ht e x h
  exact ⟨hL.differentiableAt, by rw [hd, hL.fderiv]⟩

/-- **C50, `derivative`.**  The pair returned is the value and the derivative. -/
theorem derivative_exact {tiny : ℝ} (ht : 0 < tiny) (e : Expr 1) (x : ℝ) (h : e.Smooth tiny fun _ => x) :
    DifferentiableAt ℝ (fun t => e.fn fun _ => t) x ∧
      derivative (fun d => e.dual tiny fun _ => d) x = .ret (e.fn fun _ => x, deriv (fun t => e.fn fun _ => t) x) := by
  obtain ⟨L, hL, hd⟩ := correct_of_smooth ht e _ h
  have hg : HasDerivAt (fun t : ℝ => (fun _ => t : Fin 1 → ℝ)) (fun _ => 1) x := hasDerivAt_pi.2 fun _ => hasDerivAt_id x
  have := hL.comp_hasDerivAt x hg
  refine ⟨this.differentiableAt, ?_⟩
  have h1 := hd fun _ => 1
  simp only [derivative, h1, Outcome.bind_ret]
  rw [show deriv (fun t => e.fn fun _ => t) x = L fun _ => 1 from this.deriv]

theorem gradientLoop_exact {tiny : ℝ} (ht : 0 < tiny) (e : Expr n) (x : Fin n → ℝ) (h : e.Smooth tiny x)
    (l : List (Fin n)) :
    gradientLoop (fun y => e.dual tiny y) x l = .ret (l.map fun i => fderiv ℝ e.fn x (Pi.single i 1)) := by
  induction l with
  | nil => rfl
  | cons i l ih =>
    have hs : (Function.update (fun j => (⟨x j, 0⟩ : Dual)) i ⟨x i, 1⟩) =
        fun j => ⟨x j, (Pi.single i 1 : Fin n → ℝ) j⟩ := by
      funext j
      rcases eq_or_ne j i with rfl | hj
      · simp
      · simp [hj]
    rw [gradientLoop, ih, hs]
    simp only [(dual_exact ht e x _ h).2, Outcome.bind_ret, List.map_cons]

/-- **C50, `gradient`.**  As many entries as variables; entry `i` is the partial derivative in variable `i`: the derivative
of the function of one number got by varying coordinate `i` alone. -/
theorem gradient_exact {tiny : ℝ} (ht : 0 < tiny) (e : Expr n) (x : Fin n → ℝ) (h : e.Smooth tiny x) :
    ∃ g, gradient (fun y => e.dual tiny y) x = .ret g ∧ g.length = n ∧
      ∀ i : Fin n, ∃ v, g[(i : ℕ)]? = some v ∧ HasDerivAt (fun t => e.fn (Function.update x i t)) v (x i) := by
  refine ⟨_, gradientLoop_exact ht e x h _, by simp, fun i => ⟨fderiv ℝ e.fn x (Pi.single i 1), by simp, ?_⟩⟩
  have hd := (dual_exact ht e x 0 h).1.hasFDerivAt
  have hu : HasDerivAt (Function.update x i) (Pi.single i 1) (x i) := by
    rw [hasDerivAt_pi]
    intro j
    rcases eq_or_ne j i with rfl | hj
    · simpa using hasDerivAt_id' (x j)
    · simpa [hj] using hasDerivAt_const (x i) (x j)
  have hx : x = Function.update x i (x i) := (Function.update_eq_self i x).symm
  rw [hx] at hd
  have := hd.comp_hasDerivAt (x i) hu
  rw [← hx] at this
  exact this

/-- **C50, updating.**  The compound assignments compute what the operators compute. -/
theorem assign_eq (a b : Dual) : a.addAssign b = a.add b ∧ a.subAssign b = a.sub b ∧ a.mulAssign b = a.mul b ∧
    a.divAssign b = a.div b := by
  refine ⟨rfl, rfl, rfl, ?_⟩
  unfold Dual.divAssign Dual.div quot
  by_cases h : b.value = 0
  · simp [h]
  · simp only [mul_eq_zero, or_self, if_neg h, Outcome.bind_ret]
    congr 2
    · field_simp
    · field_simp

/-! ## Where the claim fails -/

/-- `abs` at zero: a derivative is reported although the function has none. -/
theorem abs_at_zero : derivative (fun d => (Expr.abs (.var 0) : Expr 1).dual 1 fun _ => d) 0 = .ret (0, 1) ∧
    ¬ DifferentiableAt ℝ (fun t : ℝ => |t|) 0 :=
  ⟨by simp [derivative, Expr.dual, Dual.abs], not_differentiableAt_abs_zero⟩

/-- `asin` at one: a finite derivative is reported although the function has none. -/
theorem asin_at_one {tiny : ℝ} (ht : 0 < tiny) :
    derivative (fun d => (Expr.asin (.var 0) : Expr 1).dual tiny fun _ => d) 1 = .ret (Real.pi / 2, 1 / √tiny) ∧
    ¬ DifferentiableAt ℝ Real.arcsin 1 := by
  constructor
  · have hs := (Real.sqrt_pos.2 ht).ne'
    simp only [derivative, Expr.dual, Dual.asin, quot, Outcome.bind_ret]
    norm_num [max_eq_right ht.le, hs]
  · rw [Real.differentiableAt_arcsin]; simp

/-- `pow(x, 0)` at zero: the function is constantly one, yet the derivative is not a number. -/
theorem powConst_zero_at_zero : derivative (fun d => (Expr.powConst (.var 0) 0 : Expr 1).dual 1 fun _ => d) 0 = .ub ∧
    HasDerivAt (fun t : ℝ => t ^ (0 : ℝ)) 0 0 := by
  constructor
  · simp [derivative, Expr.dual, Dual.powConst, stdPow]
    norm_num
  · simpa using hasDerivAt_const (0 : ℝ) (1 : ℝ)

/-- A branch taken only at one point: `x == 1 ? 1 : x` is the identity, yet its derivative at `1` is reported as zero. -/
theorem branch_at_tie :
    derivative (fun d => (Expr.branch .eq (.var 0) (.const 1) (.const 1) (.var 0) : Expr 1).dual 1 fun _ => d) 1 =
      .ret (1, 0) ∧
    HasDerivAt (fun t : ℝ => (Expr.branch .eq (.var 0) (.const 1) (.const 1) (.var 0) : Expr 1).fn fun _ => t) 1 1 := by
  constructor
  · simp [derivative, Expr.dual, Dual.const, Cmp.holds]
  · have : (fun t : ℝ => (Expr.branch .eq (.var 0) (.const 1) (.const 1) (.var 0) : Expr 1).fn fun _ => t) = fun t => t := by
      funext t
      by_cases h : t = 1 <;> simp [Expr.fn, h]
    rw [this]; exact hasDerivAt_id 1

/-! ## The hypotheses can be met -/

/-- `x * sin(y) / sqrt(x)` where `x < 3`, `atan2(y, x)` elsewhere, `pow(-y, 3)` added, at `(2, 1)`. -/
example : (Expr.add (.branch .lt (.var 0) (.const 3) (.div (.mul (.var 0) (.sin (.var 1))) (.sqrt (.var 0)))
      (.log (.neg (.var 0)))) (.add (.pow (.neg (.var 1)) (.const 3)) (.asin (.div (.var 1) (.const 2)))) : Expr 2).Smooth
      (1 / 2) ![2, 1] := by
  simp [Expr.Smooth, Expr.fn, Cmp.holds, PowArgs, PowSmooth]
  norm_num
  exact ⟨3, by norm_num⟩

example : (Expr.atan2 (.var 0) (.const (-1)) : Expr 1).Smooth 1 fun _ => 2 := by norm_num [Expr.Smooth, Expr.fn]

end Verif.AD
