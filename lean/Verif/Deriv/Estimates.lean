import Verif.Deriv.Props

/-!
# Error estimates (C70) and one-sided derivatives (C71)
-/

set_option autoImplicit false

namespace Verif.Deriv

theorem poly_taylor (p : Polynomial ℝ) (n : ℕ) (hp : p.natDegree ≤ n) (x : ℝ) :
    ∃ a : ℕ → ℝ, (∀ t, p.eval (x + t) = ∑ k ∈ Finset.range (n + 1), a k * t ^ k) ∧
      (∀ t, p.eval (x - t) = ∑ k ∈ Finset.range (n + 1), a k * (-t) ^ k) ∧ p.eval x = a 0 ∧
      a 1 = p.derivative.eval x := by
  have hT : ∀ t, p.eval (x + t) = ∑ k ∈ Finset.range (n + 1), (Polynomial.taylor x p).coeff k * t ^ k := fun t => by
    rw [add_comm, ← Polynomial.taylor_eval]
    exact Polynomial.eval_eq_sum_range' (by rw [Polynomial.natDegree_taylor]; omega) t
  exact ⟨fun k => (Polynomial.taylor x p).coeff k, hT, fun t => by rw [sub_eq_add_neg]; exact hT _,
    (Polynomial.taylor_coeff_zero ..).symm, Polynomial.taylor_coeff_one ..⟩

theorem estimate_covers {X c sg d Z e : ℝ} (he : e = |X| / c + Z) (key : X / c = sg * d) (hc : 0 < c) (hsg : |sg| = 1)
    (hZ : 0 ≤ Z) {eps : ℝ} (hZ0 : eps = 0 → Z = 0) : |d| ≤ e ∧ (eps = 0 → e = |d|) := by
  have : |X| / c = |d| := by
    rw [← abs_of_pos hc, ← abs_div, key, abs_mul, hsg, one_mul]
  rw [he, this]
  exact ⟨by linarith, fun h => by rw [hZ0 h, add_zero]⟩

/-- **C70.**  The error estimate of `NDer1` covers the truncation error on polynomials of degree up to 2, and is equal to
it there up to the rounding term. -/
theorem nDer1_estimate (eps : ℝ) (heps : 0 ≤ eps) (p : Polynomial ℝ) (hp : p.natDegree ≤ 2) (x h : ℝ) (hh : 0 < h) :
    ∃ v e, nDer1 eps (fun y => some (p.eval y)) x (some h) true = .ret (some v, some e) ∧
      |v - p.derivative.eval x| ≤ e ∧ (eps = 0 → e = |v - p.derivative.eval x|) := by
  have hret : nDer1 eps (fun y => some (p.eval y)) x (some h) true =
      .ret (nDer1Value (fun y => some (p.eval y)) x h, nDer1Error eps (fun y => some (p.eval y)) x h) := by
    simp only [nDer1, nDer1Detailed, simple, Option.getD_some]
    rw [(detailed_spec _ _ _ _ _ _).2.2 hh (fun _ => ⟨by simp [nDer1Value], fun _ => by simp [nDer1Error]⟩)]
    rfl
  rw [hret]
  refine ⟨_, _, by simp only [nDer1Value, nDer1Error, Option.bind_eq_bind, Option.bind_some]; rfl, ?_⟩
  obtain ⟨a, hT, hN, hT0, ha⟩ := poly_taylor p 2 hp x
  rw [← ha]
  have v0 : p.eval (x + h) = _ := hT _
  have v1 : p.eval (x) = _ := hT0
  have v2 : p.eval (x - h) = _ := hN _
  have key : (p.eval (x + h) - 2 * p.eval (x) + p.eval (x - h)) / (2 * h) = 1 * ((p.eval (x + h) - p.eval (x)) / h - a 1) := by
    simp only [v0, v1, v2, Finset.sum_range_succ, Finset.sum_range_zero]
    field_simp
    ring
  refine estimate_covers (sg := 1) (c := 2 * h)
    (Z := (|p.eval (x + h)| + |p.eval (x)|) * eps / h) ?_ key (by positivity) (by norm_num) ?_ ?_
  · ring
  · positivity
  · intro h0
    rw [h0]
    ring

/-- **C70.**  The error estimate of `NDer2` covers the truncation error on polynomials of degree up to 4, and is equal to
it there up to the rounding term. -/
theorem nDer2_estimate (eps : ℝ) (heps : 0 ≤ eps) (p : Polynomial ℝ) (hp : p.natDegree ≤ 4) (x h : ℝ) (hh : 0 < h) :
    ∃ v e, nDer2 eps (fun y => some (p.eval y)) x (some h) true = .ret (some v, some e) ∧
      |v - p.derivative.eval x| ≤ e ∧ (eps = 0 → e = |v - p.derivative.eval x|) := by
  have hret : nDer2 eps (fun y => some (p.eval y)) x (some h) true =
      .ret (nDer2Value (fun y => some (p.eval y)) x h, nDer2Error eps (fun y => some (p.eval y)) x h) := by
    simp only [nDer2, nDer2Detailed, simple, Option.getD_some]
    rw [(detailed_spec _ _ _ _ _ _).2.2 hh (fun _ => ⟨by simp [nDer2Value], fun _ => by simp [nDer2Error]⟩)]
    rfl
  rw [hret]
  refine ⟨_, _, by simp only [nDer2Value, nDer2Error, Option.bind_eq_bind, Option.bind_some]; rfl, ?_⟩
  obtain ⟨a, hT, hN, hT0, ha⟩ := poly_taylor p 4 hp x
  rw [← ha]
  have v0 : p.eval (x + h) = _ := hT _
  have v1 : p.eval (x - h) = _ := hN _
  have v2 : p.eval (x + 2 * h) = _ := hT _
  have v3 : p.eval (x - 2 * h) = _ := hN _
  have key : ((p.eval (x + 2 * h) - p.eval (x - 2 * h)) / 2 - (p.eval (x + h) - p.eval (x - h))) / (6 * h) = 1 * ((p.eval (x + h) - p.eval (x - h)) / (2 * h) - a 1) := by
    simp only [v0, v1, v2, v3, Finset.sum_range_succ, Finset.sum_range_zero]
    field_simp
    ring
  refine estimate_covers (sg := 1) (c := 6 * h)
    (Z := eps * (|p.eval (x + h)| + |p.eval (x - h)|) / (2 * h)) ?_ key (by positivity) (by norm_num) ?_ ?_
  · ring
  · positivity
  · intro h0
    rw [h0]
    ring

/-- **C70.**  The error estimate of `NDer4` covers the truncation error on polynomials of degree up to 6, and is equal to
it there up to the rounding term. -/
theorem nDer4_estimate (eps : ℝ) (heps : 0 ≤ eps) (p : Polynomial ℝ) (hp : p.natDegree ≤ 6) (x h : ℝ) (hh : 0 < h) :
    ∃ v e, nDer4 eps (fun y => some (p.eval y)) x (some h) true = .ret (some v, some e) ∧
      |v - p.derivative.eval x| ≤ e ∧ (eps = 0 → e = |v - p.derivative.eval x|) := by
  have hret : nDer4 eps (fun y => some (p.eval y)) x (some h) true =
      .ret (nDer4Value (fun y => some (p.eval y)) x h, nDer4Error eps (fun y => some (p.eval y)) x h) := by
    simp only [nDer4, nDer4Detailed, simple, Option.getD_some]
    rw [(detailed_spec _ _ _ _ _ _).2.2 hh (fun _ => ⟨by simp [nDer4Value], fun _ => by simp [nDer4Error]⟩)]
    rfl
  rw [hret]
  refine ⟨_, _, by simp only [nDer4Value, nDer4Error, Option.bind_eq_bind, Option.bind_some]; rfl, ?_⟩
  obtain ⟨a, hT, hN, hT0, ha⟩ := poly_taylor p 6 hp x
  rw [← ha]
  have v0 : p.eval (x + h) = _ := hT _
  have v1 : p.eval (x - h) = _ := hN _
  have v2 : p.eval (x + 2 * h) = _ := hT _
  have v3 : p.eval (x - 2 * h) = _ := hN _
  have v4 : p.eval (x + 3 * h) = _ := hT _
  have v5 : p.eval (x - 3 * h) = _ := hN _
  have key : ((p.eval (x + 3 * h) - p.eval (x - 3 * h)) / 2 + 2 * (p.eval (x - 2 * h) - p.eval (x + 2 * h)) + 5 * (p.eval (x + h) - p.eval (x - h)) / 2) / (30 * h) = -1 * (((p.eval (x - 2 * h) - p.eval (x + 2 * h)) + 8 * (p.eval (x + h) - p.eval (x - h))) / (12 * h) - a 1) := by
    simp only [v0, v1, v2, v3, v4, v5, Finset.sum_range_succ, Finset.sum_range_zero]
    field_simp
    ring
  refine estimate_covers (sg := -1) (c := 30 * h)
    (Z := eps * (|p.eval (x + 2 * h)| + |p.eval (x - 2 * h)| + 8 * (|p.eval (x - h)| + |p.eval (x + h)|)) / (12 * h)) ?_ key (by positivity) (by norm_num) ?_ ?_
  · ring
  · positivity
  · intro h0
    rw [h0]
    ring

/-- **C70.**  The error estimate of `NDer6` covers the truncation error on polynomials of degree up to 8, and is equal to
it there up to the rounding term. -/
theorem nDer6_estimate (eps : ℝ) (heps : 0 ≤ eps) (p : Polynomial ℝ) (hp : p.natDegree ≤ 8) (x h : ℝ) (hh : 0 < h) :
    ∃ v e, nDer6 eps (fun y => some (p.eval y)) x (some h) true = .ret (some v, some e) ∧
      |v - p.derivative.eval x| ≤ e ∧ (eps = 0 → e = |v - p.derivative.eval x|) := by
  have hret : nDer6 eps (fun y => some (p.eval y)) x (some h) true =
      .ret (nDer6Value (fun y => some (p.eval y)) x h, nDer6Error eps (fun y => some (p.eval y)) x h) := by
    simp only [nDer6, nDer6Detailed, simple, Option.getD_some]
    rw [(detailed_spec _ _ _ _ _ _).2.2 hh (fun _ => ⟨by simp [nDer6Value], fun _ => by simp [nDer6Error]⟩)]
    rfl
  rw [hret]
  refine ⟨_, _, by simp only [nDer6Value, nDer6Error, Option.bind_eq_bind, Option.bind_some]; rfl, ?_⟩
  obtain ⟨a, hT, hN, hT0, ha⟩ := poly_taylor p 8 hp x
  rw [← ha]
  have v0 : p.eval (x + h) = _ := hT _
  have v1 : p.eval (x - h) = _ := hN _
  have v2 : p.eval (x - 2 * h) = _ := hN _
  have v3 : p.eval (x + 2 * h) = _ := hT _
  have v4 : p.eval (x + 3 * h) = _ := hT _
  have v5 : p.eval (x - 3 * h) = _ := hN _
  have v6 : p.eval (x + 4 * h) = _ := hT _
  have v7 : p.eval (x - 4 * h) = _ := hN _
  have key : ((p.eval (x + 4 * h) - p.eval (x - 4 * h) - 6 * (p.eval (x + 3 * h) - p.eval (x - 3 * h)) - 14 * (p.eval (x + h) - p.eval (x - h)) - 14 * (p.eval (x - 2 * h) - p.eval (x + 2 * h))) / 2) / (140 * h) = 1 * (((p.eval (x + 3 * h) - p.eval (x - 3 * h)) + 9 * (p.eval (x - 2 * h) - p.eval (x + 2 * h)) + 45 * (p.eval (x + h) - p.eval (x - h))) / (60 * h) - a 1) := by
    simp only [v0, v1, v2, v3, v4, v5, v6, v7, Finset.sum_range_succ, Finset.sum_range_zero]
    field_simp
    ring
  refine estimate_covers (sg := 1) (c := 140 * h)
    (Z := 5 * (|p.eval (x + h)| + |p.eval (x - h)|) * eps / h) ?_ key (by positivity) (by norm_num) ?_ ?_
  · ring
  · positivity
  · intro h0
    rw [h0]
    ring

/-- **C70.**  The error estimate of `NDer8` covers the truncation error on polynomials of degree up to 10, and is equal to
it there up to the rounding term. -/
theorem nDer8_estimate (eps : ℝ) (heps : 0 ≤ eps) (p : Polynomial ℝ) (hp : p.natDegree ≤ 10) (x h : ℝ) (hh : 0 < h) :
    ∃ v e, nDer8 eps (fun y => some (p.eval y)) x (some h) true = .ret (some v, some e) ∧
      |v - p.derivative.eval x| ≤ e ∧ (eps = 0 → e = |v - p.derivative.eval x|) := by
  have hret : nDer8 eps (fun y => some (p.eval y)) x (some h) true =
      .ret (nDer8Value (fun y => some (p.eval y)) x h, nDer8Error eps (fun y => some (p.eval y)) x h) := by
    simp only [nDer8, nDer8Detailed, simple, Option.getD_some]
    rw [(detailed_spec _ _ _ _ _ _).2.2 hh (fun _ => ⟨by simp [nDer8Value], fun _ => by simp [nDer8Error]⟩)]
    rfl
  rw [hret]
  refine ⟨_, _, by simp only [nDer8Value, nDer8Error, Option.bind_eq_bind, Option.bind_some]; rfl, ?_⟩
  obtain ⟨a, hT, hN, hT0, ha⟩ := poly_taylor p 10 hp x
  rw [← ha]
  have v0 : p.eval (x + h) = _ := hT _
  have v1 : p.eval (x - h) = _ := hN _
  have v2 : p.eval (x - 2 * h) = _ := hN _
  have v3 : p.eval (x + 2 * h) = _ := hT _
  have v4 : p.eval (x + 3 * h) = _ := hT _
  have v5 : p.eval (x - 3 * h) = _ := hN _
  have v6 : p.eval (x - 4 * h) = _ := hN _
  have v7 : p.eval (x + 4 * h) = _ := hT _
  have v8 : p.eval (x + 5 * h) = _ := hT _
  have v9 : p.eval (x - 5 * h) = _ := hN _
  have key : ((p.eval (x + 5 * h) - p.eval (x - 5 * h)) / 2 + 4 * (p.eval (x - 4 * h) - p.eval (x + 4 * h)) + 27 * (p.eval (x + 3 * h) - p.eval (x - 3 * h)) / 2 + 24 * (p.eval (x - 2 * h) - p.eval (x + 2 * h)) + 21 * (p.eval (x + h) - p.eval (x - h))) / (630 * h) = -1 * (((3 * (p.eval (x - 4 * h) - p.eval (x + 4 * h)) / 8 + 4 * (p.eval (x + 3 * h) - p.eval (x - 3 * h))) + (21 * (p.eval (x - 2 * h) - p.eval (x + 2 * h)) + 84 * (p.eval (x + h) - p.eval (x - h)))) / (105 * h) - a 1) := by
    simp only [v0, v1, v2, v3, v4, v5, v6, v7, v8, v9, Finset.sum_range_succ, Finset.sum_range_zero]
    field_simp
    ring
  refine estimate_covers (sg := -1) (c := 630 * h)
    (Z := 7 * (|p.eval (x + h)| + |p.eval (x - h)|) * eps / h) ?_ key (by positivity) (by norm_num) ?_ ?_
  · ring
  · positivity
  · intro h0
    rw [h0]
    ring

/-! ## One-sided derivatives -/

theorem abs_shift {x y s c k K : ℝ} (hy : |y - (x - c * s)| ≤ k * s ∨ |y - (x + c * s)| ≤ k * s) (hc : 0 ≤ c)
    (hK : c + k ≤ K) (hs : 0 < s) : |y - x| ≤ K * s := by
  have h1 : (c + k) * s ≤ K * s := mul_le_mul_of_nonneg_right hK hs.le
  have h2 : 0 ≤ c * s := mul_nonneg hc hs.le
  rw [abs_le]
  rcases hy with hy | hy <;> rw [abs_le] at hy <;> constructor <;> linarith

/-- **C71.**  `NDer2Left` with the default step is the derivative at `x` up to first order in the step. -/
theorem nDer2Left_default_order_partial (eps : ℝ) (f : Fn) (g : ℝ → ℝ) (x s M : ℝ) (wantError : Bool)
    (hstep : scaleStep (nDer2H eps) x = s) (hs : 0 < s)
    (hf : Smooth f g x (3 * s) 2 M) (hfin : wantError = true → ∀ y, |y - x| ≤ 4 * s → f y ≠ none) :
    ∃ v e, nDer2Left eps f x none wantError = .ret (some v, e) ∧ |v - deriv g x| ≤ 5 / 2 * M * s := by
  subst hstep
  obtain ⟨e, he⟩ := simple_detailed 2 4 hs (nDer2_value (x := x - 2 * _) hs
    fun y hy => hf.value y (abs_shift (c := 2) (.inl hy) (by norm_num) (by norm_num) hs))
    wantError fun hw => nDer2_error_finite eps hs fun y hy => hfin hw y (abs_shift (c := 2) (.inl hy) (by norm_num) (by norm_num) hs)
  refine ⟨_, e, he, ?_⟩
  have h1 := stencil_error [(1 / 2, -1), (-1 / 2, -3)] g x _ M 3 1 1 le_rfl hs
    (by
      intro p hp
      simp only [List.mem_cons, List.not_mem_nil, or_false] at hp
      rcases hp with rfl | rfl <;> norm_num [abs_of_pos, abs_of_neg])
    (by exact_mod_cast hf.diff) hf.bound
    (by
      intro m hm
      interval_cases m <;> norm_num [moment, Nat.factorial])
  rw [iteratedDeriv_one] at h1
  refine le_trans (le_of_eq ?_) (h1.trans (le_of_eq ?_))
  · congr 3
    simp only [stencil, nDer2Weights, List.map_cons, List.map_nil, List.sum_cons, List.sum_nil]
    ring_nf
  · norm_num [absMoment, Nat.factorial, abs_of_pos, abs_of_neg]

/-- **C71.**  `NDer2Left` with an explicit step is the derivative at `x` up to first order in the step. -/
theorem nDer2Left_step_order_partial (eps : ℝ) (f : Fn) (g : ℝ → ℝ) (x s M : ℝ) (wantError : Bool) (hs : 0 < s)
    (hf : Smooth f g x (4 * s) 2 M) (hfin : wantError = true → ∀ y, |y - x| ≤ 5 * s → f y ≠ none) :
    ∃ v e, nDer2Left eps f x (some s) wantError = .ret (some v, e) ∧ |v - deriv g x| ≤ 5 * M * s := by
  obtain ⟨e, he⟩ := simple_detailed 2 4 hs (nDer2_value (x := x - 3 * _) hs
    fun y hy => hf.value y (abs_shift (c := 3) (.inl hy) (by norm_num) (by norm_num) hs))
    wantError fun hw => nDer2_error_finite eps hs fun y hy => hfin hw y (abs_shift (c := 3) (.inl hy) (by norm_num) (by norm_num) hs)
  refine ⟨_, e, he, ?_⟩
  have h1 := stencil_error [(1 / 2, -2), (-1 / 2, -4)] g x _ M 4 1 1 le_rfl hs
    (by
      intro p hp
      simp only [List.mem_cons, List.not_mem_nil, or_false] at hp
      rcases hp with rfl | rfl <;> norm_num [abs_of_pos, abs_of_neg])
    (by exact_mod_cast hf.diff) hf.bound
    (by
      intro m hm
      interval_cases m <;> norm_num [moment, Nat.factorial])
  rw [iteratedDeriv_one] at h1
  refine le_trans (le_of_eq ?_) (h1.trans (le_of_eq ?_))
  · congr 3
    simp only [stencil, nDer2Weights, List.map_cons, List.map_nil, List.sum_cons, List.sum_nil]
    ring_nf
  · norm_num [absMoment, Nat.factorial, abs_of_pos, abs_of_neg]

/-- **C71.**  `NDer2Right` with the default step is the derivative at `x` up to first order in the step. -/
theorem nDer2Right_default_order_partial (eps : ℝ) (f : Fn) (g : ℝ → ℝ) (x s M : ℝ) (wantError : Bool)
    (hstep : scaleStep (nDer2H eps) x = s) (hs : 0 < s)
    (hf : Smooth f g x (3 * s) 2 M) (hfin : wantError = true → ∀ y, |y - x| ≤ 4 * s → f y ≠ none) :
    ∃ v e, nDer2Right eps f x none wantError = .ret (some v, e) ∧ |v - deriv g x| ≤ 5 / 2 * M * s := by
  subst hstep
  obtain ⟨e, he⟩ := simple_detailed 2 4 hs (nDer2_value (x := x + 2 * _) hs
    fun y hy => hf.value y (abs_shift (c := 2) (.inr hy) (by norm_num) (by norm_num) hs))
    wantError fun hw => nDer2_error_finite eps hs fun y hy => hfin hw y (abs_shift (c := 2) (.inr hy) (by norm_num) (by norm_num) hs)
  refine ⟨_, e, he, ?_⟩
  have h1 := stencil_error [(1 / 2, 3), (-1 / 2, 1)] g x _ M 3 1 1 le_rfl hs
    (by
      intro p hp
      simp only [List.mem_cons, List.not_mem_nil, or_false] at hp
      rcases hp with rfl | rfl <;> norm_num [abs_of_pos, abs_of_neg])
    (by exact_mod_cast hf.diff) hf.bound
    (by
      intro m hm
      interval_cases m <;> norm_num [moment, Nat.factorial])
  rw [iteratedDeriv_one] at h1
  refine le_trans (le_of_eq ?_) (h1.trans (le_of_eq ?_))
  · congr 3
    simp only [stencil, nDer2Weights, List.map_cons, List.map_nil, List.sum_cons, List.sum_nil]
    ring_nf
  · norm_num [absMoment, Nat.factorial, abs_of_pos, abs_of_neg]

/-- **C71.**  `NDer2Right` with an explicit step is the derivative at `x` up to first order in the step. -/
theorem nDer2Right_step_order_partial (eps : ℝ) (f : Fn) (g : ℝ → ℝ) (x s M : ℝ) (wantError : Bool) (hs : 0 < s)
    (hf : Smooth f g x (4 * s) 2 M) (hfin : wantError = true → ∀ y, |y - x| ≤ 5 * s → f y ≠ none) :
    ∃ v e, nDer2Right eps f x (some s) wantError = .ret (some v, e) ∧ |v - deriv g x| ≤ 5 * M * s := by
  obtain ⟨e, he⟩ := simple_detailed 2 4 hs (nDer2_value (x := x + 3 * _) hs
    fun y hy => hf.value y (abs_shift (c := 3) (.inr hy) (by norm_num) (by norm_num) hs))
    wantError fun hw => nDer2_error_finite eps hs fun y hy => hfin hw y (abs_shift (c := 3) (.inr hy) (by norm_num) (by norm_num) hs)
  refine ⟨_, e, he, ?_⟩
  have h1 := stencil_error [(1 / 2, 4), (-1 / 2, 2)] g x _ M 4 1 1 le_rfl hs
    (by
      intro p hp
      simp only [List.mem_cons, List.not_mem_nil, or_false] at hp
      rcases hp with rfl | rfl <;> norm_num [abs_of_pos, abs_of_neg])
    (by exact_mod_cast hf.diff) hf.bound
    (by
      intro m hm
      interval_cases m <;> norm_num [moment, Nat.factorial])
  rw [iteratedDeriv_one] at h1
  refine le_trans (le_of_eq ?_) (h1.trans (le_of_eq ?_))
  · congr 3
    simp only [stencil, nDer2Weights, List.map_cons, List.map_nil, List.sum_cons, List.sum_nil]
    ring_nf
  · norm_num [absMoment, Nat.factorial, abs_of_pos, abs_of_neg]

/-- **C71.**  `NDer4Left` is the derivative at `x` up to first order in the step. -/
theorem nDer4Left_order_partial (eps : ℝ) (f : Fn) (g : ℝ → ℝ) (x s M : ℝ) (h : Option ℝ) (wantError : Bool)
    (hstep : h.getD (scaleStep (nDer4H eps) x) = s) (hs : 0 < s)
    (hf : Smooth f g x (6 * s) 2 M) (hfin : wantError = true → ∀ y, |y - x| ≤ 7 * s → f y ≠ none) :
    ∃ v e, nDer4Left eps f x h wantError = .ret (some v, e) ∧ |v - deriv g x| ≤ 13 * M * s := by
  subst hstep
  obtain ⟨e, he⟩ := simple_detailed 4 6 hs (nDer4_value (x := x - 4 * _) hs
    fun y hy => hf.value y (abs_shift (c := 4) (.inl hy) (by norm_num) (by norm_num) hs))
    wantError fun hw => nDer4_error_finite eps hs fun y hy => hfin hw y (abs_shift (c := 4) (.inl hy) (by norm_num) (by norm_num) hs)
  refine ⟨_, e, he, ?_⟩
  have h1 := stencil_error [(2 / 3, -3), (-2 / 3, -5), (-1 / 12, -2), (1 / 12, -6)] g x _ M 6 1 1 le_rfl hs
    (by
      intro p hp
      simp only [List.mem_cons, List.not_mem_nil, or_false] at hp
      rcases hp with rfl | rfl | rfl | rfl <;> norm_num [abs_of_pos, abs_of_neg])
    (by exact_mod_cast hf.diff) hf.bound
    (by
      intro m hm
      interval_cases m <;> norm_num [moment, Nat.factorial])
  rw [iteratedDeriv_one] at h1
  refine le_trans (le_of_eq ?_) (h1.trans (le_of_eq ?_))
  · congr 3
    simp only [stencil, nDer4Weights, List.map_cons, List.map_nil, List.sum_cons, List.sum_nil]
    ring_nf
  · norm_num [absMoment, Nat.factorial, abs_of_pos, abs_of_neg]

/-- **C71.**  `NDer4Right` is the derivative at `x` up to first order in the step. -/
theorem nDer4Right_order_partial (eps : ℝ) (f : Fn) (g : ℝ → ℝ) (x s M : ℝ) (h : Option ℝ) (wantError : Bool)
    (hstep : h.getD (scaleStep (nDer4H eps) x) = s) (hs : 0 < s)
    (hf : Smooth f g x (6 * s) 2 M) (hfin : wantError = true → ∀ y, |y - x| ≤ 7 * s → f y ≠ none) :
    ∃ v e, nDer4Right eps f x h wantError = .ret (some v, e) ∧ |v - deriv g x| ≤ 13 * M * s := by
  subst hstep
  obtain ⟨e, he⟩ := simple_detailed 4 6 hs (nDer4_value (x := x + 4 * _) hs
    fun y hy => hf.value y (abs_shift (c := 4) (.inr hy) (by norm_num) (by norm_num) hs))
    wantError fun hw => nDer4_error_finite eps hs fun y hy => hfin hw y (abs_shift (c := 4) (.inr hy) (by norm_num) (by norm_num) hs)
  refine ⟨_, e, he, ?_⟩
  have h1 := stencil_error [(2 / 3, 5), (-2 / 3, 3), (-1 / 12, 6), (1 / 12, 2)] g x _ M 6 1 1 le_rfl hs
    (by
      intro p hp
      simp only [List.mem_cons, List.not_mem_nil, or_false] at hp
      rcases hp with rfl | rfl | rfl | rfl <;> norm_num [abs_of_pos, abs_of_neg])
    (by exact_mod_cast hf.diff) hf.bound
    (by
      intro m hm
      interval_cases m <;> norm_num [moment, Nat.factorial])
  rw [iteratedDeriv_one] at h1
  refine le_trans (le_of_eq ?_) (h1.trans (le_of_eq ?_))
  · congr 3
    simp only [stencil, nDer4Weights, List.map_cons, List.map_nil, List.sum_cons, List.sum_nil]
    ring_nf
  · norm_num [absMoment, Nat.factorial, abs_of_pos, abs_of_neg]

/-- **C71.**  `NDer6Left` is the derivative at `x` up to first order in the step. -/
theorem nDer6Left_order_partial (eps : ℝ) (f : Fn) (g : ℝ → ℝ) (x s M : ℝ) (h : Option ℝ) (wantError : Bool)
    (hstep : h.getD (scaleStep (nDer6H eps) x) = s) (hs : 0 < s)
    (hf : Smooth f g x (8 * s) 2 M) (hfin : wantError = true → ∀ y, |y - x| ≤ 9 * s → f y ≠ none) :
    ∃ v e, nDer6Left eps f x h wantError = .ret (some v, e) ∧ |v - deriv g x| ≤ 293 / 12 * M * s := by
  subst hstep
  obtain ⟨e, he⟩ := simple_detailed 6 8 hs (nDer6_value (x := x - 5 * _) hs
    fun y hy => hf.value y (abs_shift (c := 5) (.inl hy) (by norm_num) (by norm_num) hs))
    wantError fun hw => nDer6_error_finite eps hs fun y hy => hfin hw y (abs_shift (c := 5) (.inl hy) (by norm_num) (by norm_num) hs)
  refine ⟨_, e, he, ?_⟩
  have h1 := stencil_error [(3 / 4, -4), (-3 / 4, -6), (3 / 20, -7), (-3 / 20, -3), (1 / 60, -2), (-1 / 60, -8)] g x _ M 8 1 1 le_rfl hs
    (by
      intro p hp
      simp only [List.mem_cons, List.not_mem_nil, or_false] at hp
      rcases hp with rfl | rfl | rfl | rfl | rfl | rfl <;> norm_num [abs_of_pos, abs_of_neg])
    (by exact_mod_cast hf.diff) hf.bound
    (by
      intro m hm
      interval_cases m <;> norm_num [moment, Nat.factorial])
  rw [iteratedDeriv_one] at h1
  refine le_trans (le_of_eq ?_) (h1.trans (le_of_eq ?_))
  · congr 3
    simp only [stencil, nDer6Weights, List.map_cons, List.map_nil, List.sum_cons, List.sum_nil]
    ring_nf
  · norm_num [absMoment, Nat.factorial, abs_of_pos, abs_of_neg]

/-- **C71.**  `NDer6Right` is the derivative at `x` up to first order in the step. -/
theorem nDer6Right_order_partial (eps : ℝ) (f : Fn) (g : ℝ → ℝ) (x s M : ℝ) (h : Option ℝ) (wantError : Bool)
    (hstep : h.getD (scaleStep (nDer6H eps) x) = s) (hs : 0 < s)
    (hf : Smooth f g x (8 * s) 2 M) (hfin : wantError = true → ∀ y, |y - x| ≤ 9 * s → f y ≠ none) :
    ∃ v e, nDer6Right eps f x h wantError = .ret (some v, e) ∧ |v - deriv g x| ≤ 293 / 12 * M * s := by
  subst hstep
  obtain ⟨e, he⟩ := simple_detailed 6 8 hs (nDer6_value (x := x + 5 * _) hs
    fun y hy => hf.value y (abs_shift (c := 5) (.inr hy) (by norm_num) (by norm_num) hs))
    wantError fun hw => nDer6_error_finite eps hs fun y hy => hfin hw y (abs_shift (c := 5) (.inr hy) (by norm_num) (by norm_num) hs)
  refine ⟨_, e, he, ?_⟩
  have h1 := stencil_error [(3 / 4, 6), (-3 / 4, 4), (3 / 20, 3), (-3 / 20, 7), (1 / 60, 8), (-1 / 60, 2)] g x _ M 8 1 1 le_rfl hs
    (by
      intro p hp
      simp only [List.mem_cons, List.not_mem_nil, or_false] at hp
      rcases hp with rfl | rfl | rfl | rfl | rfl | rfl <;> norm_num [abs_of_pos, abs_of_neg])
    (by exact_mod_cast hf.diff) hf.bound
    (by
      intro m hm
      interval_cases m <;> norm_num [moment, Nat.factorial])
  rw [iteratedDeriv_one] at h1
  refine le_trans (le_of_eq ?_) (h1.trans (le_of_eq ?_))
  · congr 3
    simp only [stencil, nDer6Weights, List.map_cons, List.map_nil, List.sum_cons, List.sum_nil]
    ring_nf
  · norm_num [absMoment, Nat.factorial, abs_of_pos, abs_of_neg]

/-- **C71.**  `NDer8Left` is the derivative at `x` up to first order in the step. -/
theorem nDer8Left_order_partial (eps : ℝ) (f : Fn) (g : ℝ → ℝ) (x s M : ℝ) (h : Option ℝ) (wantError : Bool)
    (hstep : h.getD (scaleStep (nDer8H eps) x) = s) (hs : 0 < s)
    (hf : Smooth f g x (10 * s) 2 M) (hfin : wantError = true → ∀ y, |y - x| ≤ 11 * s → f y ≠ none) :
    ∃ v e, nDer8Left eps f x h wantError = .ret (some v, e) ∧ |v - deriv g x| ≤ 79 / 2 * M * s := by
  subst hstep
  obtain ⟨e, he⟩ := simple_detailed 8 10 hs (nDer8_value (x := x - 6 * _) hs
    fun y hy => hf.value y (abs_shift (c := 6) (.inl hy) (by norm_num) (by norm_num) hs))
    wantError fun hw => nDer8_error_finite eps hs fun y hy => hfin hw y (abs_shift (c := 6) (.inl hy) (by norm_num) (by norm_num) hs)
  refine ⟨_, e, he, ?_⟩
  have h1 := stencil_error [(4 / 5, -5), (-4 / 5, -7), (1 / 5, -8), (-1 / 5, -4), (4 / 105, -3), (-4 / 105, -9), (1 / 280, -10), (-1 / 280, -2)] g x _ M 10 1 1 le_rfl hs
    (by
      intro p hp
      simp only [List.mem_cons, List.not_mem_nil, or_false] at hp
      rcases hp with rfl | rfl | rfl | rfl | rfl | rfl | rfl | rfl <;> norm_num [abs_of_pos, abs_of_neg])
    (by exact_mod_cast hf.diff) hf.bound
    (by
      intro m hm
      interval_cases m <;> norm_num [moment, Nat.factorial])
  rw [iteratedDeriv_one] at h1
  refine le_trans (le_of_eq ?_) (h1.trans (le_of_eq ?_))
  · congr 3
    simp only [stencil, nDer8Weights, List.map_cons, List.map_nil, List.sum_cons, List.sum_nil]
    ring_nf
  · norm_num [absMoment, Nat.factorial, abs_of_pos, abs_of_neg]

/-- **C71.**  `NDer8Right` is the derivative at `x` up to first order in the step. -/
theorem nDer8Right_order_partial (eps : ℝ) (f : Fn) (g : ℝ → ℝ) (x s M : ℝ) (h : Option ℝ) (wantError : Bool)
    (hstep : h.getD (scaleStep (nDer8H eps) x) = s) (hs : 0 < s)
    (hf : Smooth f g x (10 * s) 2 M) (hfin : wantError = true → ∀ y, |y - x| ≤ 11 * s → f y ≠ none) :
    ∃ v e, nDer8Right eps f x h wantError = .ret (some v, e) ∧ |v - deriv g x| ≤ 79 / 2 * M * s := by
  subst hstep
  obtain ⟨e, he⟩ := simple_detailed 8 10 hs (nDer8_value (x := x + 6 * _) hs
    fun y hy => hf.value y (abs_shift (c := 6) (.inr hy) (by norm_num) (by norm_num) hs))
    wantError fun hw => nDer8_error_finite eps hs fun y hy => hfin hw y (abs_shift (c := 6) (.inr hy) (by norm_num) (by norm_num) hs)
  refine ⟨_, e, he, ?_⟩
  have h1 := stencil_error [(4 / 5, 7), (-4 / 5, 5), (1 / 5, 4), (-1 / 5, 8), (4 / 105, 9), (-4 / 105, 3), (1 / 280, 2), (-1 / 280, 10)] g x _ M 10 1 1 le_rfl hs
    (by
      intro p hp
      simp only [List.mem_cons, List.not_mem_nil, or_false] at hp
      rcases hp with rfl | rfl | rfl | rfl | rfl | rfl | rfl | rfl <;> norm_num [abs_of_pos, abs_of_neg])
    (by exact_mod_cast hf.diff) hf.bound
    (by
      intro m hm
      interval_cases m <;> norm_num [moment, Nat.factorial])
  rw [iteratedDeriv_one] at h1
  refine le_trans (le_of_eq ?_) (h1.trans (le_of_eq ?_))
  · congr 3
    simp only [stencil, nDer8Weights, List.map_cons, List.map_nil, List.sum_cons, List.sum_nil]
    ring_nf
  · norm_num [absMoment, Nat.factorial, abs_of_pos, abs_of_neg]

/-- **C70, negated.**  On `y ^ 4` at zero, where the second derivative is zero, `NSecDer2` returns `2 h²` and an estimate of
`2 h⁴ + 2 eps h²`: the estimate is smaller than the error for every step with `h² + eps < 1`. -/
theorem nSecDer2_estimate_small (eps s : ℝ) (hs : 0 < s) (he : s ^ 2 + eps < 1) :
    ∃ v e, nSecDer2 eps (fun y => some (y ^ 4)) 0 (some s) true = .ret (some v, some e) ∧ e < |v - 0| := by
  have hne : s ≠ 0 := hs.ne'
  have h2 : 0 < s ^ 2 := by positivity
  refine ⟨2 * s ^ 2, 2 * s ^ 4 + 2 * eps * s ^ 2, ?_, ?_⟩
  · simp only [nSecDer2, simple, nSecDer2Detailed, detailed, execute, nSecDer2Value, nSecDer2Error, Option.getD_some,
      Option.bind_eq_bind, Option.bind_some, if_neg (not_le.mpr hs)]
    have e1 : (0 - 2 * s) ^ 4 - 4 * (0 - s) ^ 4 + 6 * (0 : ℝ) ^ 4 - 4 * (0 + s) ^ 4 + (0 + 2 * s) ^ 4 = 24 * s ^ 4 := by ring
    have a1 : |(0 - s) ^ 4| = s ^ 4 := by rw [abs_of_nonneg (by positivity)]; ring
    have a2 : |(0 + s) ^ 4| = s ^ 4 := by rw [abs_of_nonneg (by positivity)]; ring
    have a3 : |(0 : ℝ) ^ 4| = 0 := by norm_num
    rw [e1, a1, a2, a3, abs_of_pos (by positivity : 0 < 24 * s ^ 4)]
    simp
    constructor <;> field_simp <;> ring
  · rw [sub_zero, abs_of_pos (by positivity)]
    nlinarith

/-- **C70, negated.**  On `y ^ 6` at zero `NSecDer4` returns `-8 h⁴`, and its estimate is `8 h⁸ + (40 / 3) eps h⁴`. -/
theorem nSecDer4_estimate_small (eps s : ℝ) (hs : 0 < s) (he : 3 * s ^ 4 + 5 * eps < 3) :
    ∃ v e, nSecDer4 eps (fun y => some (y ^ 6)) 0 (some s) true = .ret (some v, some e) ∧ e < |v - 0| := by
  have hne : s ≠ 0 := hs.ne'
  have h2 : 0 < s ^ 4 := by positivity
  refine ⟨-8 * s ^ 4, 8 * s ^ 8 + 40 / 3 * eps * s ^ 4 , ?_, ?_⟩
  · simp only [nSecDer4, simple, nSecDer4Detailed, detailed, execute, nSecDer4Value, nSecDer4Error, Option.getD_some,
      Option.bind_eq_bind, Option.bind_some, if_neg (not_le.mpr hs)]
    have e1 : (0 - 3 * s) ^ 6 - 6 * (0 - 2 * s) ^ 6 + 15 * (0 - s) ^ 6 - 20 * (0 : ℝ) ^ 6 + 15 * (0 + s) ^ 6 -
      6 * (0 + 2 * s) ^ 6 + (0 + 3 * s) ^ 6 = 720 * s ^ 6 := by ring
    have a1 : |(0 - s) ^ 6| = s ^ 6 := by rw [abs_of_nonneg (by positivity)]; ring
    have a2 : |(0 + s) ^ 6| = s ^ 6 := by rw [abs_of_nonneg (by positivity)]; ring
    have a3 : |(0 : ℝ) ^ 6| = 0 := by norm_num
    have a4 : |(0 - 2 * s) ^ 6| = 64 * s ^ 6 := by rw [abs_of_nonneg (by positivity)]; ring
    have a5 : |(0 + 2 * s) ^ 6| = 64 * s ^ 6 := by rw [abs_of_nonneg (by positivity)]; ring
    rw [e1, a1, a2, a3, a4, a5, abs_of_pos (by positivity : 0 < 720 * s ^ 6)]
    simp
    constructor <;> field_simp <;> ring
  · rw [sub_zero, abs_mul, abs_of_pos h2]
    norm_num
    nlinarith

/-- **C70, negated.**  `NThirdDer2` reports an error of at least one on the function `y`, whatever the step, although its
value is exact there. -/
theorem nThirdDer2_estimate_large (eps x s : ℝ) (hs : 0 < s) (he : 0 ≤ eps) :
    ∃ e, nThirdDer2 eps (fun y => some y) x (some s) true = .ret (some 0, some e) ∧ 1 ≤ e := by
  have hne : s ≠ 0 := hs.ne'
  have e1 : -(x - 2 * s) + 2 * (x - s) - 2 * (x + s) + (x + 2 * s) = 0 := by ring
  have hv : nThirdDer2Value (fun y => some y) x s = some 0 := by
    simp only [nThirdDer2Value, Option.bind_eq_bind, Option.bind_some, e1, zero_div]
  refine ⟨|(x - 3 * s) - 3 * (x - 2 * s) + 5 * (x - s) - 5 * (x + s) + 3 * (x + 2 * s) - (x + 3 * s)| / (s * s * s) *
    s * s / 4 + eps * (|x - 2 * s| + 2 * |x - s| + 2 * |x + s| + |x + 2 * s|) / (2 * (s * s * s)), ?_, ?_⟩
  · simp only [nThirdDer2, simple, nThirdDer2Detailed, detailed, execute, hv, nThirdDer2Error, Option.getD_some,
      Option.bind_eq_bind, Option.bind_some, if_neg (not_le.mpr hs)]
    simp
  · have e2 : (x - 3 * s) - 3 * (x - 2 * s) + 5 * (x - s) - 5 * (x + s) + 3 * (x + 2 * s) - (x + 3 * s) = -4 * s := by ring
    have h1 : 0 ≤ eps * (|x - 2 * s| + 2 * |x - s| + 2 * |x + s| + |x + 2 * s|) / (2 * (s * s * s)) := by positivity
    have h2 : |(x - 3 * s) - 3 * (x - 2 * s) + 5 * (x - s) - 5 * (x + s) + 3 * (x + 2 * s) - (x + 3 * s)| / (s * s * s) *
        s * s / 4 = 1 := by
      rw [e2, abs_mul, abs_of_pos hs]
      norm_num
      field_simp
    linarith

/-- **C70, negated.**  On `y ^ 5` at zero `NThirdDer2` returns `30 h²`, and its estimate is `76 h⁴ + 34 eps h²`. -/
theorem nThirdDer2_estimate_small (eps s : ℝ) (hs : 0 < s) (he : 76 * s ^ 2 + 34 * eps < 30) :
    ∃ v e, nThirdDer2 eps (fun y => some (y ^ 5)) 0 (some s) true = .ret (some v, some e) ∧ e < |v - 0| := by
  have hne : s ≠ 0 := hs.ne'
  have h2 : 0 < s ^ 2 := by positivity
  refine ⟨30 * s ^ 2, 76 * s ^ 4 + 34 * eps * s ^ 2, ?_, ?_⟩
  · simp only [nThirdDer2, simple, nThirdDer2Detailed, detailed, execute, nThirdDer2Value, nThirdDer2Error, Option.getD_some,
      Option.bind_eq_bind, Option.bind_some, if_neg (not_le.mpr hs)]
    have e1 : (0 - 3 * s) ^ 5 - 3 * (0 - 2 * s) ^ 5 + 5 * (0 - s) ^ 5 - 5 * (0 + s) ^ 5 + 3 * (0 + 2 * s) ^ 5 -
      (0 + 3 * s) ^ 5 = - (304 * s ^ 5) := by ring
    have a1 : |(0 - s) ^ 5| = s ^ 5 := by
      rw [show (0 - s) ^ 5 = -s ^ 5 by ring, abs_neg, abs_of_pos (by positivity)]
    have a2 : |(0 + s) ^ 5| = s ^ 5 := by rw [abs_of_pos (by positivity)]; ring
    have a4 : |(0 - 2 * s) ^ 5| = 32 * s ^ 5 := by
      rw [show (0 - 2 * s) ^ 5 = -(32 * s ^ 5) by ring, abs_neg, abs_of_pos (by positivity)]
    have a5 : |(0 + 2 * s) ^ 5| = 32 * s ^ 5 := by rw [abs_of_pos (by positivity)]; ring
    rw [e1, a1, a2, a4, a5, abs_neg, abs_of_pos (by positivity : 0 < 304 * s ^ 5)]
    simp
    constructor <;> field_simp <;> ring
  · rw [sub_zero, abs_of_pos (by positivity)]
    nlinarith

/-- **C70, negated.**  On `y ^ 7` at zero `NThirdDer4` returns `-294 h⁴`, and its estimate is
`146.25 h⁸ + 806 eps h⁴`. -/
theorem nThirdDer4_estimate_small (eps s : ℝ) (hs : 0 < s) (he : 146.25 * s ^ 4 + 806 * eps < 294) :
    ∃ v e, nThirdDer4 eps (fun y => some (y ^ 7)) 0 (some s) true = .ret (some v, some e) ∧ e < |v - 0| := by
  have hne : s ≠ 0 := hs.ne'
  have h2 : 0 < s ^ 4 := by positivity
  refine ⟨-294 * s ^ 4, 146.25 * s ^ 8 + 806 * eps * s ^ 4, ?_, ?_⟩
  · simp only [nThirdDer4, simple, nThirdDer4Detailed, detailed, execute, nThirdDer4Value, nThirdDer4Error, Option.getD_some,
      Option.bind_eq_bind, Option.bind_some, if_neg (not_le.mpr hs)]
    have e1 : (0 - 4 * s) ^ 7 - 4 * (0 - 3 * s) ^ 7 + 9 * (0 - 2 * s) ^ 7 - 13 * (0 - s) ^ 7 + 13 * (0 + s) ^ 7 -
      9 * (0 + 2 * s) ^ 7 + 4 * (0 + 3 * s) ^ 7 - (0 + 4 * s) ^ 7 = - (17550 * s ^ 7) := by ring
    have a1 : |(0 - s) ^ 7| = s ^ 7 := by
      rw [show (0 - s) ^ 7 = -s ^ 7 by ring, abs_neg, abs_of_pos (by positivity)]
    have a2 : |(0 + s) ^ 7| = s ^ 7 := by rw [abs_of_pos (by positivity)]; ring
    have a4 : |(0 - 2 * s) ^ 7| = 128 * s ^ 7 := by
      rw [show (0 - 2 * s) ^ 7 = -(128 * s ^ 7) by ring, abs_neg, abs_of_pos (by positivity)]
    have a5 : |(0 + 2 * s) ^ 7| = 128 * s ^ 7 := by rw [abs_of_pos (by positivity)]; ring
    have a6 : |(0 - 3 * s) ^ 7| = 2187 * s ^ 7 := by
      rw [show (0 - 3 * s) ^ 7 = -(2187 * s ^ 7) by ring, abs_neg, abs_of_pos (by positivity)]
    have a7 : |(0 + 3 * s) ^ 7| = 2187 * s ^ 7 := by rw [abs_of_pos (by positivity)]; ring
    rw [e1, a1, a2, a4, a5, a6, a7, abs_neg, abs_of_pos (by positivity : 0 < 17550 * s ^ 7)]
    simp
    constructor <;> field_simp <;> ring
  · rw [sub_zero, abs_mul, abs_of_pos h2]
    norm_num
    nlinarith

end Verif.Deriv
