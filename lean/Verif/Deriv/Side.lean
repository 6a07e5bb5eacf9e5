import Verif.Deriv.Estimates
import Mathlib.Analysis.SpecialFunctions.Trigonometric.Deriv

/-!
# One-sided derivatives: which points they use

The left and right variants are recommended at the ends of an interval, where the function exists on one side only.
They are the symmetric rules about a shifted point, so they are first-order for the derivative at `x`.
-/

set_option autoImplicit false

namespace Verif.Deriv

open Verif

/-- **C71.**  `NDer1Left` and `NDer1Right` are the derivative at `x` up to first order in the step. -/
theorem nDer1_sided_order (eps : ℝ) (f : Fn) (g : ℝ → ℝ) (x s M : ℝ) (h : Option ℝ) (wantError : Bool)
    (hstep : h.getD (scaleStep (nDer1H eps) x) = s) (hs : 0 < s) (hf : Smooth f g x (1 * s) 2 M)
    (hfin : wantError = true → ∀ y, |y - x| ≤ 2 * s → f y ≠ none) :
    (∃ v e, nDer1Left eps f x h wantError = .ret (some v, e) ∧ |v - deriv g x| ≤ 1 / 2 * M * s) ∧
    (∃ v e, nDer1Right eps f x h wantError = .ret (some v, e) ∧ |v - deriv g x| ≤ 1 / 2 * M * s) := by
  constructor
  · subst hstep
    obtain ⟨y0, hy0⟩ : ∃ y, f x = some y := ⟨_, hf.value x (by rw [sub_self, abs_zero]; linarith)⟩
    have v0 := hf.value x (by rw [sub_self, abs_zero]; linarith)
    have v1 := hf.value (x - h.getD (scaleStep (nDer1H eps) x)) (by rw [abs_le]; constructor <;> linarith)
    have hv : nDer1Value f (x - h.getD (scaleStep (nDer1H eps) x)) (h.getD (scaleStep (nDer1H eps) x)) =
        some (stencil [(1, 0), (-1, -1)] g x (h.getD (scaleStep (nDer1H eps) x)) / (h.getD (scaleStep (nDer1H eps) x)) ^ 1) := by
      simp only [nDer1Value, sub_add_cancel, v0, v1, Option.bind_eq_bind, Option.bind_some, Option.some.injEq, stencil,
        List.map_cons, List.map_nil, List.sum_cons, List.sum_nil]
      ring_nf
    obtain ⟨e, he⟩ := simple_detailed 2 3 hs hv
      wantError fun hw => nDer1_error_finite (x := x - h.getD (scaleStep (nDer1H eps) x)) eps hs fun y hy => hfin hw y (by
        rw [abs_le] at hy ⊢
        constructor <;> linarith [hy.1, hy.2])
    refine ⟨_, e, he, ?_⟩
    have h1 := stencil_error [(1, 0), (-1, -1)] g x _ M 1 1 1 le_rfl hs
      (by
        intro p hp
        simp only [List.mem_cons, List.not_mem_nil, or_false] at hp
        rcases hp with rfl | rfl <;> norm_num [abs_of_pos, abs_of_neg])
      (by exact_mod_cast hf.diff) hf.bound
      (by
        intro m hm
        interval_cases m <;> norm_num [moment, Nat.factorial])
    rw [iteratedDeriv_one] at h1
    refine h1.trans (le_of_eq ?_)
    norm_num [absMoment, Nat.factorial, abs_of_pos, abs_of_neg]
  · obtain ⟨v, e, h1, h2⟩ := nDer1_order eps f g x s M (some s) wantError rfl hs hf
      (fun hw y hy => hfin hw y (hy.trans (by linarith)))
    exact ⟨v, e, by rw [nDer1Right, hstep]; exact h1, by simpa using h2⟩

/-- The hypotheses of the first-order theorems hold for the sine, whose second derivative is bounded by one. -/
example (eps : ℝ) (h : 0 < eps) : ∃ v e, nDer4Left eps (fun y => some (Real.sin y)) 0 none true = .ret (some v, e) ∧
    |v - 1| ≤ 13 * 1 * scaleStep (nDer4H eps) 0 := by
  have := nDer4Left_order_partial eps (fun y => some (Real.sin y)) Real.sin 0 _ 1 none true rfl
    (default_steps_pos eps 0 h).2.2.1
    ⟨fun _ _ => rfl, fun y _ => Real.contDiff_sin.contDiffAt, fun y _ => by
      rw [iteratedDeriv_succ, iteratedDeriv_one]
      simp [Real.abs_sin_le_one]⟩
    (fun _ _ _ => by simp)
  simpa using this

/-- Rule 1 depends only on the function within 1 steps of the point. -/
theorem nDer1_local (eps : ℝ) (f f' : Fn) (x s : ℝ) (w : Bool) (hs : 0 < s)
    (hf : ∀ y, |y - x| ≤ 1 * s → f y = f' y) : nDer1 eps f x (some s) w = nDer1 eps f' x (some s) w := by
  have h0 : f (x) = f' (x) := hf _ (by rw [abs_le]; constructor <;> linarith)
  have h1 : f (x + s) = f' (x + s) := hf _ (by rw [abs_le]; constructor <;> linarith)
  have h2 : f (x - s) = f' (x - s) := hf _ (by rw [abs_le]; constructor <;> linarith)
  simp only [nDer1, simple, nDer1Detailed, nDer1Value, nDer1Error, Option.getD_some, h0, h1, h2]

/-- Rule 2 depends only on the function within 2 steps of the point. -/
theorem nDer2_local (eps : ℝ) (f f' : Fn) (x s : ℝ) (w : Bool) (hs : 0 < s)
    (hf : ∀ y, |y - x| ≤ 2 * s → f y = f' y) : nDer2 eps f x (some s) w = nDer2 eps f' x (some s) w := by
  have h0 : f (x + s) = f' (x + s) := hf _ (by rw [abs_le]; constructor <;> linarith)
  have h1 : f (x - s) = f' (x - s) := hf _ (by rw [abs_le]; constructor <;> linarith)
  have h2 : f (x + 2 * s) = f' (x + 2 * s) := hf _ (by rw [abs_le]; constructor <;> linarith)
  have h3 : f (x - 2 * s) = f' (x - 2 * s) := hf _ (by rw [abs_le]; constructor <;> linarith)
  simp only [nDer2, simple, nDer2Detailed, nDer2Value, nDer2Error, Option.getD_some, h0, h1, h2, h3]

/-- Rule 4 depends only on the function within 3 steps of the point. -/
theorem nDer4_local (eps : ℝ) (f f' : Fn) (x s : ℝ) (w : Bool) (hs : 0 < s)
    (hf : ∀ y, |y - x| ≤ 3 * s → f y = f' y) : nDer4 eps f x (some s) w = nDer4 eps f' x (some s) w := by
  have h0 : f (x + s) = f' (x + s) := hf _ (by rw [abs_le]; constructor <;> linarith)
  have h1 : f (x - s) = f' (x - s) := hf _ (by rw [abs_le]; constructor <;> linarith)
  have h2 : f (x + 2 * s) = f' (x + 2 * s) := hf _ (by rw [abs_le]; constructor <;> linarith)
  have h3 : f (x - 2 * s) = f' (x - 2 * s) := hf _ (by rw [abs_le]; constructor <;> linarith)
  have h4 : f (x + 3 * s) = f' (x + 3 * s) := hf _ (by rw [abs_le]; constructor <;> linarith)
  have h5 : f (x - 3 * s) = f' (x - 3 * s) := hf _ (by rw [abs_le]; constructor <;> linarith)
  simp only [nDer4, simple, nDer4Detailed, nDer4Value, nDer4Error, Option.getD_some, h0, h1, h2, h3, h4, h5]

/-- Rule 6 depends only on the function within 4 steps of the point. -/
theorem nDer6_local (eps : ℝ) (f f' : Fn) (x s : ℝ) (w : Bool) (hs : 0 < s)
    (hf : ∀ y, |y - x| ≤ 4 * s → f y = f' y) : nDer6 eps f x (some s) w = nDer6 eps f' x (some s) w := by
  have h0 : f (x + s) = f' (x + s) := hf _ (by rw [abs_le]; constructor <;> linarith)
  have h1 : f (x - s) = f' (x - s) := hf _ (by rw [abs_le]; constructor <;> linarith)
  have h2 : f (x + 2 * s) = f' (x + 2 * s) := hf _ (by rw [abs_le]; constructor <;> linarith)
  have h3 : f (x - 2 * s) = f' (x - 2 * s) := hf _ (by rw [abs_le]; constructor <;> linarith)
  have h4 : f (x + 3 * s) = f' (x + 3 * s) := hf _ (by rw [abs_le]; constructor <;> linarith)
  have h5 : f (x - 3 * s) = f' (x - 3 * s) := hf _ (by rw [abs_le]; constructor <;> linarith)
  have h6 : f (x + 4 * s) = f' (x + 4 * s) := hf _ (by rw [abs_le]; constructor <;> linarith)
  have h7 : f (x - 4 * s) = f' (x - 4 * s) := hf _ (by rw [abs_le]; constructor <;> linarith)
  simp only [nDer6, simple, nDer6Detailed, nDer6Value, nDer6Error, Option.getD_some, h0, h1, h2, h3, h4, h5, h6, h7]

/-- Rule 8 depends only on the function within 5 steps of the point. -/
theorem nDer8_local (eps : ℝ) (f f' : Fn) (x s : ℝ) (w : Bool) (hs : 0 < s)
    (hf : ∀ y, |y - x| ≤ 5 * s → f y = f' y) : nDer8 eps f x (some s) w = nDer8 eps f' x (some s) w := by
  have h0 : f (x + s) = f' (x + s) := hf _ (by rw [abs_le]; constructor <;> linarith)
  have h1 : f (x - s) = f' (x - s) := hf _ (by rw [abs_le]; constructor <;> linarith)
  have h2 : f (x + 2 * s) = f' (x + 2 * s) := hf _ (by rw [abs_le]; constructor <;> linarith)
  have h3 : f (x - 2 * s) = f' (x - 2 * s) := hf _ (by rw [abs_le]; constructor <;> linarith)
  have h4 : f (x + 3 * s) = f' (x + 3 * s) := hf _ (by rw [abs_le]; constructor <;> linarith)
  have h5 : f (x - 3 * s) = f' (x - 3 * s) := hf _ (by rw [abs_le]; constructor <;> linarith)
  have h6 : f (x + 4 * s) = f' (x + 4 * s) := hf _ (by rw [abs_le]; constructor <;> linarith)
  have h7 : f (x - 4 * s) = f' (x - 4 * s) := hf _ (by rw [abs_le]; constructor <;> linarith)
  have h8 : f (x + 5 * s) = f' (x + 5 * s) := hf _ (by rw [abs_le]; constructor <;> linarith)
  have h9 : f (x - 5 * s) = f' (x - 5 * s) := hf _ (by rw [abs_le]; constructor <;> linarith)
  simp only [nDer8, simple, nDer8Detailed, nDer8Value, nDer8Error, Option.getD_some, h0, h1, h2, h3, h4, h5, h6, h7, h8, h9]

/-- **C71.**  The left derivatives depend only on the function to the left of `x`, with and without the error
estimate. -/
theorem left_uses_left (eps : ℝ) (heps : 0 < eps) (f f' : Fn) (x : ℝ) (h : Option ℝ) (hh : ∀ s ∈ h, 0 < s) (w : Bool)
    (hf : ∀ y ≤ x, f y = f' y) :
    nDer1Left eps f x h w = nDer1Left eps f' x h w ∧
    nDer2Left eps f x h w = nDer2Left eps f' x h w ∧
    nDer4Left eps f x h w = nDer4Left eps f' x h w ∧
    nDer6Left eps f x h w = nDer6Left eps f' x h w ∧
    nDer8Left eps f x h w = nDer8Left eps f' x h w := by
  refine ⟨?_, ?_, ?_, ?_, ?_⟩
  · cases h with
    | none =>
      have hs := (default_steps_pos eps x heps).1
      exact nDer1_local eps f f' _ _ w hs fun y hy => hf y (by rw [abs_le] at hy; linarith [hy.1, hy.2])
    | some s =>
      have hs := hh s rfl
      exact nDer1_local eps f f' _ _ w hs fun y hy => hf y (by rw [abs_le] at hy; linarith [hy.1, hy.2])
  · cases h with
    | none =>
      have hs := (default_steps_pos eps x heps).2.1
      exact nDer2_local eps f f' _ _ w hs fun y hy => hf y (by rw [abs_le] at hy; linarith [hy.1, hy.2])
    | some s =>
      have hs := hh s rfl
      exact nDer2_local eps f f' _ _ w hs fun y hy => hf y (by rw [abs_le] at hy; linarith [hy.1, hy.2])
  · cases h with
    | none =>
      have hs := (default_steps_pos eps x heps).2.2.1
      exact nDer4_local eps f f' _ _ w hs fun y hy => hf y (by rw [abs_le] at hy; linarith [hy.1, hy.2])
    | some s =>
      have hs := hh s rfl
      exact nDer4_local eps f f' _ _ w hs fun y hy => hf y (by rw [abs_le] at hy; linarith [hy.1, hy.2])
  · cases h with
    | none =>
      have hs := (default_steps_pos eps x heps).2.2.2.1
      exact nDer6_local eps f f' _ _ w hs fun y hy => hf y (by rw [abs_le] at hy; linarith [hy.1, hy.2])
    | some s =>
      have hs := hh s rfl
      exact nDer6_local eps f f' _ _ w hs fun y hy => hf y (by rw [abs_le] at hy; linarith [hy.1, hy.2])
  · cases h with
    | none =>
      have hs := (default_steps_pos eps x heps).2.2.2.2
      exact nDer8_local eps f f' _ _ w hs fun y hy => hf y (by rw [abs_le] at hy; linarith [hy.1, hy.2])
    | some s =>
      have hs := hh s rfl
      exact nDer8_local eps f f' _ _ w hs fun y hy => hf y (by rw [abs_le] at hy; linarith [hy.1, hy.2])

/-- **C71.**  The right derivatives depend only on the function to the right of `x`, except for the error estimate of
`NDer1Right`. -/
theorem right_uses_right_partial (eps : ℝ) (heps : 0 < eps) (f f' : Fn) (x : ℝ) (h : Option ℝ) (hh : ∀ s ∈ h, 0 < s)
    (w : Bool) (hf : ∀ y, x ≤ y → f y = f' y) :
    nDer2Right eps f x h w = nDer2Right eps f' x h w ∧
    nDer4Right eps f x h w = nDer4Right eps f' x h w ∧
    nDer6Right eps f x h w = nDer6Right eps f' x h w ∧
    nDer8Right eps f x h w = nDer8Right eps f' x h w ∧
    nDer1Right eps f x h false = nDer1Right eps f' x h false := by
  refine ⟨?_, ?_, ?_, ?_, ?_⟩
  · cases h with
    | none =>
      have hs := (default_steps_pos eps x heps).2.1
      exact nDer2_local eps f f' _ _ w hs fun y hy => hf y (by rw [abs_le] at hy; linarith [hy.1, hy.2])
    | some s =>
      have hs := hh s rfl
      exact nDer2_local eps f f' _ _ w hs fun y hy => hf y (by rw [abs_le] at hy; linarith [hy.1, hy.2])
  · cases h with
    | none =>
      have hs := (default_steps_pos eps x heps).2.2.1
      exact nDer4_local eps f f' _ _ w hs fun y hy => hf y (by rw [abs_le] at hy; linarith [hy.1, hy.2])
    | some s =>
      have hs := hh s rfl
      exact nDer4_local eps f f' _ _ w hs fun y hy => hf y (by rw [abs_le] at hy; linarith [hy.1, hy.2])
  · cases h with
    | none =>
      have hs := (default_steps_pos eps x heps).2.2.2.1
      exact nDer6_local eps f f' _ _ w hs fun y hy => hf y (by rw [abs_le] at hy; linarith [hy.1, hy.2])
    | some s =>
      have hs := hh s rfl
      exact nDer6_local eps f f' _ _ w hs fun y hy => hf y (by rw [abs_le] at hy; linarith [hy.1, hy.2])
  · cases h with
    | none =>
      have hs := (default_steps_pos eps x heps).2.2.2.2
      exact nDer8_local eps f f' _ _ w hs fun y hy => hf y (by rw [abs_le] at hy; linarith [hy.1, hy.2])
    | some s =>
      have hs := hh s rfl
      exact nDer8_local eps f f' _ _ w hs fun y hy => hf y (by rw [abs_le] at hy; linarith [hy.1, hy.2])
  · have hs : 0 < h.getD (scaleStep (nDer1H eps) x) := by
      cases h with
      | none => exact (default_steps_pos eps x heps).1
      | some s => exact hh s rfl
    have h0 := hf x le_rfl
    have h1 := hf (x + h.getD (scaleStep (nDer1H eps) x)) (by linarith)
    simp only [nDer1Right, nDer1, simple, nDer1Detailed, detailed, execute, nDer1Value, Option.getD_some, h0, h1]
    rfl

/-- Two functions that agree on one side only, for the two theorems above. -/
example : ∃ f f' : Fn, f ≠ f' ∧ (∀ y ≤ (0 : ℝ), f y = f' y) ∧ f (-1) = some 1 :=
  ⟨fun y => some (-y), fun y => some |y|, fun h => by
    have := congrFun h 1
    norm_num at this, fun y hy => by simp only [abs_of_nonpos hy], by norm_num⟩

/-- **C71, negated.**  `NDer1Right` with an error estimate does look left of `x`: on a function defined on the right
only, such as the square root at zero, it throws whatever the step. -/
theorem nDer1Right_looks_left (eps s : ℝ) (hs : 0 < s) :
    ∃ f : Fn, (∀ y, 0 ≤ y → f y = some (Real.sqrt y)) ∧
      nDer1Right eps f 0 (some s) true = .exn (.mml "NumericalMethodError") ∧
      (∃ v e, nDer1Right eps f 0 (some s) false = .ret (some v, e)) := by
  refine ⟨fun y => if y < 0 then none else some (Real.sqrt y), fun y hy => if_neg (not_lt.mpr hy), ?_, ?_⟩
  · have h1 : ¬ (0 + s < 0) := by linarith
    have h2 : (0 - s < 0) := by linarith
    simp [nDer1Right, nDer1, simple, nDer1Detailed, detailed, execute, nDer1Value, nDer1Error, h2,
      not_le.mpr hs, not_lt.mpr hs.le, hs]
  · refine ⟨(Real.sqrt s - 0) / s, some 0, ?_⟩
    simp [nDer1Right, nDer1, simple, nDer1Detailed, detailed, execute, nDer1Value,
      not_le.mpr hs, not_lt.mpr hs.le]

/-- **C71, negated.**  On `y ^ 2` at zero, where the derivative is zero, `NDer2Left` returns `-6 * h`: its error is of
first order in the step, not of order 2. -/
theorem nDer2Left_shift (eps s : ℝ) (hs : 0 < s) :
    nDer2Left eps (fun y => some (y ^ 2)) 0 (some s) false = .ret (some (-6 * s), some 0) := by
  have hne : s ≠ 0 := hs.ne'
  simp only [nDer2Left, nDer2, simple, nDer2Detailed, detailed, execute, nDer2Value, Option.getD_some,
    Option.bind_eq_bind, Option.bind_some, if_neg (not_le.mpr hs)]
  simp
  field_simp
  ring

/-- **C71, negated.**  On `y ^ 2` at zero, where the derivative is zero, `NDer2Right` returns `6 * h`: its error is of
first order in the step, not of order 2. -/
theorem nDer2Right_shift (eps s : ℝ) (hs : 0 < s) :
    nDer2Right eps (fun y => some (y ^ 2)) 0 (some s) false = .ret (some (6 * s), some 0) := by
  have hne : s ≠ 0 := hs.ne'
  simp only [nDer2Right, nDer2, simple, nDer2Detailed, detailed, execute, nDer2Value, Option.getD_some,
    Option.bind_eq_bind, Option.bind_some, if_neg (not_le.mpr hs)]
  simp
  field_simp
  ring

/-- **C71, negated.**  On `y ^ 2` at zero, where the derivative is zero, `NDer4Left` returns `-8 * h`: its error is of
first order in the step, not of order 4. -/
theorem nDer4Left_shift (eps s : ℝ) (hs : 0 < s) :
    nDer4Left eps (fun y => some (y ^ 2)) 0 (some s) false = .ret (some (-8 * s), some 0) := by
  have hne : s ≠ 0 := hs.ne'
  simp only [nDer4Left, nDer4, simple, nDer4Detailed, detailed, execute, nDer4Value, Option.getD_some,
    Option.bind_eq_bind, Option.bind_some, if_neg (not_le.mpr hs)]
  simp
  field_simp
  ring

/-- **C71, negated.**  On `y ^ 2` at zero, where the derivative is zero, `NDer4Right` returns `8 * h`: its error is of
first order in the step, not of order 4. -/
theorem nDer4Right_shift (eps s : ℝ) (hs : 0 < s) :
    nDer4Right eps (fun y => some (y ^ 2)) 0 (some s) false = .ret (some (8 * s), some 0) := by
  have hne : s ≠ 0 := hs.ne'
  simp only [nDer4Right, nDer4, simple, nDer4Detailed, detailed, execute, nDer4Value, Option.getD_some,
    Option.bind_eq_bind, Option.bind_some, if_neg (not_le.mpr hs)]
  simp
  field_simp
  ring

/-- **C71, negated.**  On `y ^ 2` at zero, where the derivative is zero, `NDer6Left` returns `-10 * h`: its error is of
first order in the step, not of order 6. -/
theorem nDer6Left_shift (eps s : ℝ) (hs : 0 < s) :
    nDer6Left eps (fun y => some (y ^ 2)) 0 (some s) false = .ret (some (-10 * s), some 0) := by
  have hne : s ≠ 0 := hs.ne'
  simp only [nDer6Left, nDer6, simple, nDer6Detailed, detailed, execute, nDer6Value, Option.getD_some,
    Option.bind_eq_bind, Option.bind_some, if_neg (not_le.mpr hs)]
  simp
  field_simp
  ring

/-- **C71, negated.**  On `y ^ 2` at zero, where the derivative is zero, `NDer6Right` returns `10 * h`: its error is of
first order in the step, not of order 6. -/
theorem nDer6Right_shift (eps s : ℝ) (hs : 0 < s) :
    nDer6Right eps (fun y => some (y ^ 2)) 0 (some s) false = .ret (some (10 * s), some 0) := by
  have hne : s ≠ 0 := hs.ne'
  simp only [nDer6Right, nDer6, simple, nDer6Detailed, detailed, execute, nDer6Value, Option.getD_some,
    Option.bind_eq_bind, Option.bind_some, if_neg (not_le.mpr hs)]
  simp
  field_simp
  ring

/-- **C71, negated.**  On `y ^ 2` at zero, where the derivative is zero, `NDer8Left` returns `-12 * h`: its error is of
first order in the step, not of order 8. -/
theorem nDer8Left_shift (eps s : ℝ) (hs : 0 < s) :
    nDer8Left eps (fun y => some (y ^ 2)) 0 (some s) false = .ret (some (-12 * s), some 0) := by
  have hne : s ≠ 0 := hs.ne'
  simp only [nDer8Left, nDer8, simple, nDer8Detailed, detailed, execute, nDer8Value, Option.getD_some,
    Option.bind_eq_bind, Option.bind_some, if_neg (not_le.mpr hs)]
  simp
  field_simp
  ring

/-- **C71, negated.**  On `y ^ 2` at zero, where the derivative is zero, `NDer8Right` returns `12 * h`: its error is of
first order in the step, not of order 8. -/
theorem nDer8Right_shift (eps s : ℝ) (hs : 0 < s) :
    nDer8Right eps (fun y => some (y ^ 2)) 0 (some s) false = .ret (some (12 * s), some 0) := by
  have hne : s ≠ 0 := hs.ne'
  simp only [nDer8Right, nDer8, simple, nDer8Detailed, detailed, execute, nDer8Value, Option.getD_some,
    Option.bind_eq_bind, Option.bind_some, if_neg (not_le.mpr hs)]
  simp
  field_simp
  ring

end Verif.Deriv
