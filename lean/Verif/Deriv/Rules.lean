import Verif.Deriv.Model
import Verif.Deriv.Stencil
import Mathlib.Tactic.IntervalCases

/-!
# The derivative rules as weighted differences
-/

set_option autoImplicit false

namespace Verif.Deriv

theorem simple_detailed {h v : ℝ} {value error : Option ℝ} (a b : ℕ) (hh : 0 < h) (hv : value = some v)
    (w : Bool) (herr : w = true → error ≠ none) :
    ∃ e, simple (fun config => detailed h config a b value error) w = .ret (some v, e) := by
  subst hv
  cases w with
  | false => exact ⟨some 0, by simp [simple, detailed, execute, not_le.mpr hh]⟩
  | true =>
    obtain ⟨e, he⟩ := Option.ne_none_iff_exists'.mp (herr rfl)
    exact ⟨some e, by simp [simple, detailed, execute, not_le.mpr hh, he]⟩

/-- The offsets and weights of `nDer1`. -/
noncomputable def nDer1Weights : List (ℝ × ℝ) := [(1, 1), (-1, 0)]

theorem nDer1_value {f : Fn} {g : ℝ → ℝ} {x h : ℝ} (hh : 0 < h) (hv : ∀ y, |y - x| ≤ 1 * h → f y = some (g y)) :
    nDer1Value f x h = some (stencil nDer1Weights g x h / h ^ 1) := by
  have v0 := hv (x + 1 * h) (by rw [abs_le]; constructor <;> linarith)
  have v1 := hv (x) (by rw [abs_le]; constructor <;> linarith)
  simp only [one_mul] at v0 v1
  simp only [nDer1Value, v0, v1, Option.bind_eq_bind, Option.bind_some, Option.some.injEq]
  simp only [stencil, nDer1Weights, List.map_cons, List.map_nil, List.sum_cons, List.sum_nil, one_mul, zero_mul, neg_mul,
    add_zero, ← sub_eq_add_neg]
  field_simp

theorem nDer1_error_finite {f : Fn} {x h : ℝ} (eps : ℝ) (hh : 0 < h) (hv : ∀ y, |y - x| ≤ 1 * h → f y ≠ none) :
    nDer1Error eps f x h ≠ none := by
  obtain ⟨y0, v0⟩ := Option.ne_none_iff_exists'.mp (hv (x + 1 * h) (by rw [abs_le]; constructor <;> linarith))
  obtain ⟨y1, v1⟩ := Option.ne_none_iff_exists'.mp (hv (x) (by rw [abs_le]; constructor <;> linarith))
  obtain ⟨y2, v2⟩ := Option.ne_none_iff_exists'.mp (hv (x - 1 * h) (by rw [abs_le]; constructor <;> linarith))
  simp only [one_mul] at v0 v1 v2
  simp [nDer1Error, v0, v1, v2]

theorem nDer1_stencil (g : ℝ → ℝ) (x h M : ℝ) (hh : 0 < h)
    (hd : ∀ y, |y - x| ≤ 1 * h → ContDiffAt ℝ 2 g y)
    (hM : ∀ y, |y - x| ≤ 1 * h → |iteratedDeriv 2 g y| ≤ M) :
    |stencil nDer1Weights g x h / h ^ 1 - iteratedDeriv 1 g x| ≤ 1 / 2 * M * h ^ 1 := by
  have := stencil_error nDer1Weights g x h M 1 1 1 (by norm_num) hh
    (by
      intro p hp
      simp only [nDer1Weights, List.mem_cons, List.not_mem_nil, or_false] at hp
      rcases hp with rfl | rfl <;> norm_num [abs_of_pos, abs_of_neg])
    (by exact_mod_cast hd) hM
    (by
      intro m hm
      interval_cases m <;> norm_num [moment, nDer1Weights, Nat.factorial])
  refine this.trans (le_of_eq ?_)
  norm_num [absMoment, nDer1Weights, Nat.factorial, abs_of_pos, abs_of_neg]

/-- The offsets and weights of `nDer2`. -/
noncomputable def nDer2Weights : List (ℝ × ℝ) := [(1 / 2, 1), (-1 / 2, -1)]

theorem nDer2_value {f : Fn} {g : ℝ → ℝ} {x h : ℝ} (hh : 0 < h) (hv : ∀ y, |y - x| ≤ 1 * h → f y = some (g y)) :
    nDer2Value f x h = some (stencil nDer2Weights g x h / h ^ 1) := by
  have v0 := hv (x + 1 * h) (by rw [abs_le]; constructor <;> linarith)
  have v1 := hv (x - 1 * h) (by rw [abs_le]; constructor <;> linarith)
  simp only [one_mul] at v0 v1
  simp only [nDer2Value, v0, v1, Option.bind_eq_bind, Option.bind_some, Option.some.injEq]
  simp only [stencil, nDer2Weights, List.map_cons, List.map_nil, List.sum_cons, List.sum_nil, one_mul, zero_mul, neg_mul,
    add_zero, ← sub_eq_add_neg]
  field_simp
  ring

theorem nDer2_error_finite {f : Fn} {x h : ℝ} (eps : ℝ) (hh : 0 < h) (hv : ∀ y, |y - x| ≤ 2 * h → f y ≠ none) :
    nDer2Error eps f x h ≠ none := by
  obtain ⟨y0, v0⟩ := Option.ne_none_iff_exists'.mp (hv (x + 1 * h) (by rw [abs_le]; constructor <;> linarith))
  obtain ⟨y1, v1⟩ := Option.ne_none_iff_exists'.mp (hv (x - 1 * h) (by rw [abs_le]; constructor <;> linarith))
  obtain ⟨y2, v2⟩ := Option.ne_none_iff_exists'.mp (hv (x + 2 * h) (by rw [abs_le]; constructor <;> linarith))
  obtain ⟨y3, v3⟩ := Option.ne_none_iff_exists'.mp (hv (x - 2 * h) (by rw [abs_le]; constructor <;> linarith))
  simp only [one_mul] at v0 v1 v2 v3
  simp [nDer2Error, v0, v1, v2, v3]

theorem nDer2_stencil (g : ℝ → ℝ) (x h M : ℝ) (hh : 0 < h)
    (hd : ∀ y, |y - x| ≤ 1 * h → ContDiffAt ℝ 3 g y)
    (hM : ∀ y, |y - x| ≤ 1 * h → |iteratedDeriv 3 g y| ≤ M) :
    |stencil nDer2Weights g x h / h ^ 1 - iteratedDeriv 1 g x| ≤ 1 / 6 * M * h ^ 2 := by
  have := stencil_error nDer2Weights g x h M 1 2 1 (by norm_num) hh
    (by
      intro p hp
      simp only [nDer2Weights, List.mem_cons, List.not_mem_nil, or_false] at hp
      rcases hp with rfl | rfl <;> norm_num [abs_of_pos, abs_of_neg])
    (by exact_mod_cast hd) hM
    (by
      intro m hm
      interval_cases m <;> norm_num [moment, nDer2Weights, Nat.factorial])
  refine this.trans (le_of_eq ?_)
  norm_num [absMoment, nDer2Weights, Nat.factorial, abs_of_pos, abs_of_neg]

/-- The offsets and weights of `nDer4`. -/
noncomputable def nDer4Weights : List (ℝ × ℝ) := [(2 / 3, 1), (-2 / 3, -1), (-1 / 12, 2), (1 / 12, -2)]

theorem nDer4_value {f : Fn} {g : ℝ → ℝ} {x h : ℝ} (hh : 0 < h) (hv : ∀ y, |y - x| ≤ 2 * h → f y = some (g y)) :
    nDer4Value f x h = some (stencil nDer4Weights g x h / h ^ 1) := by
  have v0 := hv (x + 1 * h) (by rw [abs_le]; constructor <;> linarith)
  have v1 := hv (x - 1 * h) (by rw [abs_le]; constructor <;> linarith)
  have v2 := hv (x + 2 * h) (by rw [abs_le]; constructor <;> linarith)
  have v3 := hv (x - 2 * h) (by rw [abs_le]; constructor <;> linarith)
  simp only [one_mul] at v0 v1 v2 v3
  simp only [nDer4Value, v0, v1, v2, v3, Option.bind_eq_bind, Option.bind_some, Option.some.injEq]
  simp only [stencil, nDer4Weights, List.map_cons, List.map_nil, List.sum_cons, List.sum_nil, one_mul, zero_mul, neg_mul,
    add_zero, ← sub_eq_add_neg]
  field_simp
  ring

theorem nDer4_error_finite {f : Fn} {x h : ℝ} (eps : ℝ) (hh : 0 < h) (hv : ∀ y, |y - x| ≤ 3 * h → f y ≠ none) :
    nDer4Error eps f x h ≠ none := by
  obtain ⟨y0, v0⟩ := Option.ne_none_iff_exists'.mp (hv (x + 1 * h) (by rw [abs_le]; constructor <;> linarith))
  obtain ⟨y1, v1⟩ := Option.ne_none_iff_exists'.mp (hv (x - 1 * h) (by rw [abs_le]; constructor <;> linarith))
  obtain ⟨y2, v2⟩ := Option.ne_none_iff_exists'.mp (hv (x + 2 * h) (by rw [abs_le]; constructor <;> linarith))
  obtain ⟨y3, v3⟩ := Option.ne_none_iff_exists'.mp (hv (x - 2 * h) (by rw [abs_le]; constructor <;> linarith))
  obtain ⟨y4, v4⟩ := Option.ne_none_iff_exists'.mp (hv (x + 3 * h) (by rw [abs_le]; constructor <;> linarith))
  obtain ⟨y5, v5⟩ := Option.ne_none_iff_exists'.mp (hv (x - 3 * h) (by rw [abs_le]; constructor <;> linarith))
  simp only [one_mul] at v0 v1 v2 v3 v4 v5
  simp [nDer4Error, v0, v1, v2, v3, v4, v5]

theorem nDer4_stencil (g : ℝ → ℝ) (x h M : ℝ) (hh : 0 < h)
    (hd : ∀ y, |y - x| ≤ 2 * h → ContDiffAt ℝ 5 g y)
    (hM : ∀ y, |y - x| ≤ 2 * h → |iteratedDeriv 5 g y| ≤ M) :
    |stencil nDer4Weights g x h / h ^ 1 - iteratedDeriv 1 g x| ≤ 1 / 18 * M * h ^ 4 := by
  have := stencil_error nDer4Weights g x h M 2 4 1 (by norm_num) hh
    (by
      intro p hp
      simp only [nDer4Weights, List.mem_cons, List.not_mem_nil, or_false] at hp
      rcases hp with rfl | rfl | rfl | rfl <;> norm_num [abs_of_pos, abs_of_neg])
    (by exact_mod_cast hd) hM
    (by
      intro m hm
      interval_cases m <;> norm_num [moment, nDer4Weights, Nat.factorial])
  refine this.trans (le_of_eq ?_)
  norm_num [absMoment, nDer4Weights, Nat.factorial, abs_of_pos, abs_of_neg]

/-- The offsets and weights of `nDer6`. -/
noncomputable def nDer6Weights : List (ℝ × ℝ) := [(3 / 4, 1), (-3 / 4, -1), (3 / 20, -2), (-3 / 20, 2), (1 / 60, 3), (-1 / 60, -3)]

theorem nDer6_value {f : Fn} {g : ℝ → ℝ} {x h : ℝ} (hh : 0 < h) (hv : ∀ y, |y - x| ≤ 3 * h → f y = some (g y)) :
    nDer6Value f x h = some (stencil nDer6Weights g x h / h ^ 1) := by
  have v0 := hv (x + 1 * h) (by rw [abs_le]; constructor <;> linarith)
  have v1 := hv (x - 1 * h) (by rw [abs_le]; constructor <;> linarith)
  have v2 := hv (x - 2 * h) (by rw [abs_le]; constructor <;> linarith)
  have v3 := hv (x + 2 * h) (by rw [abs_le]; constructor <;> linarith)
  have v4 := hv (x + 3 * h) (by rw [abs_le]; constructor <;> linarith)
  have v5 := hv (x - 3 * h) (by rw [abs_le]; constructor <;> linarith)
  simp only [one_mul] at v0 v1 v2 v3 v4 v5
  simp only [nDer6Value, v0, v1, v2, v3, v4, v5, Option.bind_eq_bind, Option.bind_some, Option.some.injEq]
  simp only [stencil, nDer6Weights, List.map_cons, List.map_nil, List.sum_cons, List.sum_nil, one_mul, zero_mul, neg_mul,
    add_zero, ← sub_eq_add_neg]
  field_simp
  ring

theorem nDer6_error_finite {f : Fn} {x h : ℝ} (eps : ℝ) (hh : 0 < h) (hv : ∀ y, |y - x| ≤ 4 * h → f y ≠ none) :
    nDer6Error eps f x h ≠ none := by
  obtain ⟨y0, v0⟩ := Option.ne_none_iff_exists'.mp (hv (x + 1 * h) (by rw [abs_le]; constructor <;> linarith))
  obtain ⟨y1, v1⟩ := Option.ne_none_iff_exists'.mp (hv (x - 1 * h) (by rw [abs_le]; constructor <;> linarith))
  obtain ⟨y2, v2⟩ := Option.ne_none_iff_exists'.mp (hv (x - 2 * h) (by rw [abs_le]; constructor <;> linarith))
  obtain ⟨y3, v3⟩ := Option.ne_none_iff_exists'.mp (hv (x + 2 * h) (by rw [abs_le]; constructor <;> linarith))
  obtain ⟨y4, v4⟩ := Option.ne_none_iff_exists'.mp (hv (x + 3 * h) (by rw [abs_le]; constructor <;> linarith))
  obtain ⟨y5, v5⟩ := Option.ne_none_iff_exists'.mp (hv (x - 3 * h) (by rw [abs_le]; constructor <;> linarith))
  obtain ⟨y6, v6⟩ := Option.ne_none_iff_exists'.mp (hv (x + 4 * h) (by rw [abs_le]; constructor <;> linarith))
  obtain ⟨y7, v7⟩ := Option.ne_none_iff_exists'.mp (hv (x - 4 * h) (by rw [abs_le]; constructor <;> linarith))
  simp only [one_mul] at v0 v1 v2 v3 v4 v5 v6 v7
  simp [nDer6Error, v0, v1, v2, v3, v4, v5, v6, v7]

theorem nDer6_stencil (g : ℝ → ℝ) (x h M : ℝ) (hh : 0 < h)
    (hd : ∀ y, |y - x| ≤ 3 * h → ContDiffAt ℝ 7 g y)
    (hM : ∀ y, |y - x| ≤ 3 * h → |iteratedDeriv 7 g y| ≤ M) :
    |stencil nDer6Weights g x h / h ^ 1 - iteratedDeriv 1 g x| ≤ 47 / 2100 * M * h ^ 6 := by
  have := stencil_error nDer6Weights g x h M 3 6 1 (by norm_num) hh
    (by
      intro p hp
      simp only [nDer6Weights, List.mem_cons, List.not_mem_nil, or_false] at hp
      rcases hp with rfl | rfl | rfl | rfl | rfl | rfl <;> norm_num [abs_of_pos, abs_of_neg])
    (by exact_mod_cast hd) hM
    (by
      intro m hm
      interval_cases m <;> norm_num [moment, nDer6Weights, Nat.factorial])
  refine this.trans (le_of_eq ?_)
  norm_num [absMoment, nDer6Weights, Nat.factorial, abs_of_pos, abs_of_neg]

/-- The offsets and weights of `nDer8`. -/
noncomputable def nDer8Weights : List (ℝ × ℝ) := [(4 / 5, 1), (-4 / 5, -1), (1 / 5, -2), (-1 / 5, 2), (4 / 105, 3), (-4 / 105, -3), (1 / 280, -4), (-1 / 280, 4)]

theorem nDer8_value {f : Fn} {g : ℝ → ℝ} {x h : ℝ} (hh : 0 < h) (hv : ∀ y, |y - x| ≤ 4 * h → f y = some (g y)) :
    nDer8Value f x h = some (stencil nDer8Weights g x h / h ^ 1) := by
  have v0 := hv (x + 1 * h) (by rw [abs_le]; constructor <;> linarith)
  have v1 := hv (x - 1 * h) (by rw [abs_le]; constructor <;> linarith)
  have v2 := hv (x - 2 * h) (by rw [abs_le]; constructor <;> linarith)
  have v3 := hv (x + 2 * h) (by rw [abs_le]; constructor <;> linarith)
  have v4 := hv (x + 3 * h) (by rw [abs_le]; constructor <;> linarith)
  have v5 := hv (x - 3 * h) (by rw [abs_le]; constructor <;> linarith)
  have v6 := hv (x - 4 * h) (by rw [abs_le]; constructor <;> linarith)
  have v7 := hv (x + 4 * h) (by rw [abs_le]; constructor <;> linarith)
  simp only [one_mul] at v0 v1 v2 v3 v4 v5 v6 v7
  simp only [nDer8Value, v0, v1, v2, v3, v4, v5, v6, v7, Option.bind_eq_bind, Option.bind_some, Option.some.injEq]
  simp only [stencil, nDer8Weights, List.map_cons, List.map_nil, List.sum_cons, List.sum_nil, one_mul, zero_mul, neg_mul,
    add_zero, ← sub_eq_add_neg]
  field_simp
  ring

theorem nDer8_error_finite {f : Fn} {x h : ℝ} (eps : ℝ) (hh : 0 < h) (hv : ∀ y, |y - x| ≤ 5 * h → f y ≠ none) :
    nDer8Error eps f x h ≠ none := by
  obtain ⟨y0, v0⟩ := Option.ne_none_iff_exists'.mp (hv (x + 1 * h) (by rw [abs_le]; constructor <;> linarith))
  obtain ⟨y1, v1⟩ := Option.ne_none_iff_exists'.mp (hv (x - 1 * h) (by rw [abs_le]; constructor <;> linarith))
  obtain ⟨y2, v2⟩ := Option.ne_none_iff_exists'.mp (hv (x - 2 * h) (by rw [abs_le]; constructor <;> linarith))
  obtain ⟨y3, v3⟩ := Option.ne_none_iff_exists'.mp (hv (x + 2 * h) (by rw [abs_le]; constructor <;> linarith))
  obtain ⟨y4, v4⟩ := Option.ne_none_iff_exists'.mp (hv (x + 3 * h) (by rw [abs_le]; constructor <;> linarith))
  obtain ⟨y5, v5⟩ := Option.ne_none_iff_exists'.mp (hv (x - 3 * h) (by rw [abs_le]; constructor <;> linarith))
  obtain ⟨y6, v6⟩ := Option.ne_none_iff_exists'.mp (hv (x - 4 * h) (by rw [abs_le]; constructor <;> linarith))
  obtain ⟨y7, v7⟩ := Option.ne_none_iff_exists'.mp (hv (x + 4 * h) (by rw [abs_le]; constructor <;> linarith))
  obtain ⟨y8, v8⟩ := Option.ne_none_iff_exists'.mp (hv (x + 5 * h) (by rw [abs_le]; constructor <;> linarith))
  obtain ⟨y9, v9⟩ := Option.ne_none_iff_exists'.mp (hv (x - 5 * h) (by rw [abs_le]; constructor <;> linarith))
  simp only [one_mul] at v0 v1 v2 v3 v4 v5 v6 v7 v8 v9
  simp [nDer8Error, v0, v1, v2, v3, v4, v5, v6, v7, v8, v9]

theorem nDer8_stencil (g : ℝ → ℝ) (x h M : ℝ) (hh : 0 < h)
    (hd : ∀ y, |y - x| ≤ 4 * h → ContDiffAt ℝ 9 g y)
    (hM : ∀ y, |y - x| ≤ 4 * h → |iteratedDeriv 9 g y| ≤ M) :
    |stencil nDer8Weights g x h / h ^ 1 - iteratedDeriv 1 g x| ≤ 1957 / 198450 * M * h ^ 8 := by
  have := stencil_error nDer8Weights g x h M 4 8 1 (by norm_num) hh
    (by
      intro p hp
      simp only [nDer8Weights, List.mem_cons, List.not_mem_nil, or_false] at hp
      rcases hp with rfl | rfl | rfl | rfl | rfl | rfl | rfl | rfl <;> norm_num [abs_of_pos, abs_of_neg])
    (by exact_mod_cast hd) hM
    (by
      intro m hm
      interval_cases m <;> norm_num [moment, nDer8Weights, Nat.factorial])
  refine this.trans (le_of_eq ?_)
  norm_num [absMoment, nDer8Weights, Nat.factorial, abs_of_pos, abs_of_neg]

/-- The offsets and weights of `nSecDer2`. -/
noncomputable def nSecDer2Weights : List (ℝ × ℝ) := [(-2, 0), (1, 1), (1, -1)]

theorem nSecDer2_value {f : Fn} {g : ℝ → ℝ} {x h : ℝ} (hh : 0 < h) (hv : ∀ y, |y - x| ≤ 1 * h → f y = some (g y)) :
    nSecDer2Value f x h = some (stencil nSecDer2Weights g x h / h ^ 2) := by
  have v0 := hv (x) (by rw [abs_le]; constructor <;> linarith)
  have v1 := hv (x + 1 * h) (by rw [abs_le]; constructor <;> linarith)
  have v2 := hv (x - 1 * h) (by rw [abs_le]; constructor <;> linarith)
  simp only [one_mul] at v0 v1 v2
  simp only [nSecDer2Value, v0, v1, v2, Option.bind_eq_bind, Option.bind_some, Option.some.injEq]
  simp only [stencil, nSecDer2Weights, List.map_cons, List.map_nil, List.sum_cons, List.sum_nil, one_mul, zero_mul, neg_mul,
    add_zero, ← sub_eq_add_neg]
  field_simp
  ring

theorem nSecDer2_error_finite {f : Fn} {x h : ℝ} (eps : ℝ) (hh : 0 < h) (hv : ∀ y, |y - x| ≤ 2 * h → f y ≠ none) :
    nSecDer2Error eps f x h ≠ none := by
  obtain ⟨y0, v0⟩ := Option.ne_none_iff_exists'.mp (hv (x) (by rw [abs_le]; constructor <;> linarith))
  obtain ⟨y1, v1⟩ := Option.ne_none_iff_exists'.mp (hv (x + 1 * h) (by rw [abs_le]; constructor <;> linarith))
  obtain ⟨y2, v2⟩ := Option.ne_none_iff_exists'.mp (hv (x - 1 * h) (by rw [abs_le]; constructor <;> linarith))
  obtain ⟨y3, v3⟩ := Option.ne_none_iff_exists'.mp (hv (x + 2 * h) (by rw [abs_le]; constructor <;> linarith))
  obtain ⟨y4, v4⟩ := Option.ne_none_iff_exists'.mp (hv (x - 2 * h) (by rw [abs_le]; constructor <;> linarith))
  simp only [one_mul] at v0 v1 v2 v3 v4
  simp [nSecDer2Error, v0, v1, v2, v3, v4]

theorem nSecDer2_stencil (g : ℝ → ℝ) (x h M : ℝ) (hh : 0 < h)
    (hd : ∀ y, |y - x| ≤ 1 * h → ContDiffAt ℝ 4 g y)
    (hM : ∀ y, |y - x| ≤ 1 * h → |iteratedDeriv 4 g y| ≤ M) :
    |stencil nSecDer2Weights g x h / h ^ 2 - iteratedDeriv 2 g x| ≤ 1 / 12 * M * h ^ 2 := by
  have := stencil_error nSecDer2Weights g x h M 1 3 2 (by norm_num) hh
    (by
      intro p hp
      simp only [nSecDer2Weights, List.mem_cons, List.not_mem_nil, or_false] at hp
      rcases hp with rfl | rfl | rfl <;> norm_num [abs_of_pos, abs_of_neg])
    (by exact_mod_cast hd) hM
    (by
      intro m hm
      interval_cases m <;> norm_num [moment, nSecDer2Weights, Nat.factorial])
  refine this.trans (le_of_eq ?_)
  norm_num [absMoment, nSecDer2Weights, Nat.factorial, abs_of_pos, abs_of_neg]

/-- The offsets and weights of `nSecDer4`. -/
noncomputable def nSecDer4Weights : List (ℝ × ℝ) := [(-5 / 2, 0), (4 / 3, 1), (4 / 3, -1), (-1 / 12, 2), (-1 / 12, -2)]

theorem nSecDer4_value {f : Fn} {g : ℝ → ℝ} {x h : ℝ} (hh : 0 < h) (hv : ∀ y, |y - x| ≤ 2 * h → f y = some (g y)) :
    nSecDer4Value f x h = some (stencil nSecDer4Weights g x h / h ^ 2) := by
  have v0 := hv (x) (by rw [abs_le]; constructor <;> linarith)
  have v1 := hv (x + 1 * h) (by rw [abs_le]; constructor <;> linarith)
  have v2 := hv (x - 1 * h) (by rw [abs_le]; constructor <;> linarith)
  have v3 := hv (x + 2 * h) (by rw [abs_le]; constructor <;> linarith)
  have v4 := hv (x - 2 * h) (by rw [abs_le]; constructor <;> linarith)
  simp only [one_mul] at v0 v1 v2 v3 v4
  simp only [nSecDer4Value, v0, v1, v2, v3, v4, Option.bind_eq_bind, Option.bind_some, Option.some.injEq]
  simp only [stencil, nSecDer4Weights, List.map_cons, List.map_nil, List.sum_cons, List.sum_nil, one_mul, zero_mul, neg_mul,
    add_zero, ← sub_eq_add_neg]
  field_simp
  ring

theorem nSecDer4_error_finite {f : Fn} {x h : ℝ} (eps : ℝ) (hh : 0 < h) (hv : ∀ y, |y - x| ≤ 3 * h → f y ≠ none) :
    nSecDer4Error eps f x h ≠ none := by
  obtain ⟨y0, v0⟩ := Option.ne_none_iff_exists'.mp (hv (x) (by rw [abs_le]; constructor <;> linarith))
  obtain ⟨y1, v1⟩ := Option.ne_none_iff_exists'.mp (hv (x + 1 * h) (by rw [abs_le]; constructor <;> linarith))
  obtain ⟨y2, v2⟩ := Option.ne_none_iff_exists'.mp (hv (x - 1 * h) (by rw [abs_le]; constructor <;> linarith))
  obtain ⟨y3, v3⟩ := Option.ne_none_iff_exists'.mp (hv (x + 2 * h) (by rw [abs_le]; constructor <;> linarith))
  obtain ⟨y4, v4⟩ := Option.ne_none_iff_exists'.mp (hv (x - 2 * h) (by rw [abs_le]; constructor <;> linarith))
  obtain ⟨y5, v5⟩ := Option.ne_none_iff_exists'.mp (hv (x + 3 * h) (by rw [abs_le]; constructor <;> linarith))
  obtain ⟨y6, v6⟩ := Option.ne_none_iff_exists'.mp (hv (x - 3 * h) (by rw [abs_le]; constructor <;> linarith))
  simp only [one_mul] at v0 v1 v2 v3 v4 v5 v6
  simp [nSecDer4Error, v0, v1, v2, v3, v4, v5, v6]

theorem nSecDer4_stencil (g : ℝ → ℝ) (x h M : ℝ) (hh : 0 < h)
    (hd : ∀ y, |y - x| ≤ 2 * h → ContDiffAt ℝ 6 g y)
    (hM : ∀ y, |y - x| ≤ 2 * h → |iteratedDeriv 6 g y| ≤ M) :
    |stencil nSecDer4Weights g x h / h ^ 2 - iteratedDeriv 2 g x| ≤ 1 / 54 * M * h ^ 4 := by
  have := stencil_error nSecDer4Weights g x h M 2 5 2 (by norm_num) hh
    (by
      intro p hp
      simp only [nSecDer4Weights, List.mem_cons, List.not_mem_nil, or_false] at hp
      rcases hp with rfl | rfl | rfl | rfl | rfl <;> norm_num [abs_of_pos, abs_of_neg])
    (by exact_mod_cast hd) hM
    (by
      intro m hm
      interval_cases m <;> norm_num [moment, nSecDer4Weights, Nat.factorial])
  refine this.trans (le_of_eq ?_)
  norm_num [absMoment, nSecDer4Weights, Nat.factorial, abs_of_pos, abs_of_neg]

/-- The offsets and weights of `nThirdDer2`. -/
noncomputable def nThirdDer2Weights : List (ℝ × ℝ) := [(-1, 1), (1, -1), (1 / 2, 2), (-1 / 2, -2)]

theorem nThirdDer2_value {f : Fn} {g : ℝ → ℝ} {x h : ℝ} (hh : 0 < h) (hv : ∀ y, |y - x| ≤ 2 * h → f y = some (g y)) :
    nThirdDer2Value f x h = some (stencil nThirdDer2Weights g x h / h ^ 3) := by
  have v0 := hv (x + 1 * h) (by rw [abs_le]; constructor <;> linarith)
  have v1 := hv (x - 1 * h) (by rw [abs_le]; constructor <;> linarith)
  have v2 := hv (x + 2 * h) (by rw [abs_le]; constructor <;> linarith)
  have v3 := hv (x - 2 * h) (by rw [abs_le]; constructor <;> linarith)
  simp only [one_mul] at v0 v1 v2 v3
  simp only [nThirdDer2Value, v0, v1, v2, v3, Option.bind_eq_bind, Option.bind_some, Option.some.injEq]
  simp only [stencil, nThirdDer2Weights, List.map_cons, List.map_nil, List.sum_cons, List.sum_nil, one_mul, zero_mul, neg_mul,
    add_zero, ← sub_eq_add_neg]
  field_simp
  ring

theorem nThirdDer2_error_finite {f : Fn} {x h : ℝ} (eps : ℝ) (hh : 0 < h) (hv : ∀ y, |y - x| ≤ 3 * h → f y ≠ none) :
    nThirdDer2Error eps f x h ≠ none := by
  obtain ⟨y0, v0⟩ := Option.ne_none_iff_exists'.mp (hv (x + 1 * h) (by rw [abs_le]; constructor <;> linarith))
  obtain ⟨y1, v1⟩ := Option.ne_none_iff_exists'.mp (hv (x - 1 * h) (by rw [abs_le]; constructor <;> linarith))
  obtain ⟨y2, v2⟩ := Option.ne_none_iff_exists'.mp (hv (x + 2 * h) (by rw [abs_le]; constructor <;> linarith))
  obtain ⟨y3, v3⟩ := Option.ne_none_iff_exists'.mp (hv (x - 2 * h) (by rw [abs_le]; constructor <;> linarith))
  obtain ⟨y4, v4⟩ := Option.ne_none_iff_exists'.mp (hv (x + 3 * h) (by rw [abs_le]; constructor <;> linarith))
  obtain ⟨y5, v5⟩ := Option.ne_none_iff_exists'.mp (hv (x - 3 * h) (by rw [abs_le]; constructor <;> linarith))
  simp only [one_mul] at v0 v1 v2 v3 v4 v5
  simp [nThirdDer2Error, v0, v1, v2, v3, v4, v5]

theorem nThirdDer2_stencil (g : ℝ → ℝ) (x h M : ℝ) (hh : 0 < h)
    (hd : ∀ y, |y - x| ≤ 2 * h → ContDiffAt ℝ 5 g y)
    (hM : ∀ y, |y - x| ≤ 2 * h → |iteratedDeriv 5 g y| ≤ M) :
    |stencil nThirdDer2Weights g x h / h ^ 3 - iteratedDeriv 3 g x| ≤ 17 / 60 * M * h ^ 2 := by
  have := stencil_error nThirdDer2Weights g x h M 2 4 3 (by norm_num) hh
    (by
      intro p hp
      simp only [nThirdDer2Weights, List.mem_cons, List.not_mem_nil, or_false] at hp
      rcases hp with rfl | rfl | rfl | rfl <;> norm_num [abs_of_pos, abs_of_neg])
    (by exact_mod_cast hd) hM
    (by
      intro m hm
      interval_cases m <;> norm_num [moment, nThirdDer2Weights, Nat.factorial])
  refine this.trans (le_of_eq ?_)
  norm_num [absMoment, nThirdDer2Weights, Nat.factorial, abs_of_pos, abs_of_neg]

/-- The offsets and weights of `nThirdDer4`. -/
noncomputable def nThirdDer4Weights : List (ℝ × ℝ) := [(-13 / 8, 1), (13 / 8, -1), (1, 2), (-1, -2), (-1 / 8, 3), (1 / 8, -3)]

theorem nThirdDer4_value {f : Fn} {g : ℝ → ℝ} {x h : ℝ} (hh : 0 < h) (hv : ∀ y, |y - x| ≤ 3 * h → f y = some (g y)) :
    nThirdDer4Value f x h = some (stencil nThirdDer4Weights g x h / h ^ 3) := by
  have v0 := hv (x + 1 * h) (by rw [abs_le]; constructor <;> linarith)
  have v1 := hv (x - 1 * h) (by rw [abs_le]; constructor <;> linarith)
  have v2 := hv (x + 2 * h) (by rw [abs_le]; constructor <;> linarith)
  have v3 := hv (x - 2 * h) (by rw [abs_le]; constructor <;> linarith)
  have v4 := hv (x + 3 * h) (by rw [abs_le]; constructor <;> linarith)
  have v5 := hv (x - 3 * h) (by rw [abs_le]; constructor <;> linarith)
  simp only [one_mul] at v0 v1 v2 v3 v4 v5
  simp only [nThirdDer4Value, v0, v1, v2, v3, v4, v5, Option.bind_eq_bind, Option.bind_some, Option.some.injEq]
  simp only [stencil, nThirdDer4Weights, List.map_cons, List.map_nil, List.sum_cons, List.sum_nil, one_mul, zero_mul, neg_mul,
    add_zero, ← sub_eq_add_neg]
  field_simp
  ring

theorem nThirdDer4_error_finite {f : Fn} {x h : ℝ} (eps : ℝ) (hh : 0 < h) (hv : ∀ y, |y - x| ≤ 4 * h → f y ≠ none) :
    nThirdDer4Error eps f x h ≠ none := by
  obtain ⟨y0, v0⟩ := Option.ne_none_iff_exists'.mp (hv (x + 1 * h) (by rw [abs_le]; constructor <;> linarith))
  obtain ⟨y1, v1⟩ := Option.ne_none_iff_exists'.mp (hv (x - 1 * h) (by rw [abs_le]; constructor <;> linarith))
  obtain ⟨y2, v2⟩ := Option.ne_none_iff_exists'.mp (hv (x + 2 * h) (by rw [abs_le]; constructor <;> linarith))
  obtain ⟨y3, v3⟩ := Option.ne_none_iff_exists'.mp (hv (x - 2 * h) (by rw [abs_le]; constructor <;> linarith))
  obtain ⟨y4, v4⟩ := Option.ne_none_iff_exists'.mp (hv (x + 3 * h) (by rw [abs_le]; constructor <;> linarith))
  obtain ⟨y5, v5⟩ := Option.ne_none_iff_exists'.mp (hv (x - 3 * h) (by rw [abs_le]; constructor <;> linarith))
  obtain ⟨y6, v6⟩ := Option.ne_none_iff_exists'.mp (hv (x + 4 * h) (by rw [abs_le]; constructor <;> linarith))
  obtain ⟨y7, v7⟩ := Option.ne_none_iff_exists'.mp (hv (x - 4 * h) (by rw [abs_le]; constructor <;> linarith))
  simp only [one_mul] at v0 v1 v2 v3 v4 v5 v6 v7
  simp [nThirdDer4Error, v0, v1, v2, v3, v4, v5, v6, v7]

theorem nThirdDer4_stencil (g : ℝ → ℝ) (x h M : ℝ) (hh : 0 < h)
    (hd : ∀ y, |y - x| ≤ 3 * h → ContDiffAt ℝ 7 g y)
    (hM : ∀ y, |y - x| ≤ 3 * h → |iteratedDeriv 7 g y| ≤ M) :
    |stencil nThirdDer4Weights g x h / h ^ 3 - iteratedDeriv 3 g x| ≤ 403 / 2520 * M * h ^ 4 := by
  have := stencil_error nThirdDer4Weights g x h M 3 6 3 (by norm_num) hh
    (by
      intro p hp
      simp only [nThirdDer4Weights, List.mem_cons, List.not_mem_nil, or_false] at hp
      rcases hp with rfl | rfl | rfl | rfl | rfl | rfl <;> norm_num [abs_of_pos, abs_of_neg])
    (by exact_mod_cast hd) hM
    (by
      intro m hm
      interval_cases m <;> norm_num [moment, nThirdDer4Weights, Nat.factorial])
  refine this.trans (le_of_eq ?_)
  norm_num [absMoment, nThirdDer4Weights, Nat.factorial, abs_of_pos, abs_of_neg]

end Verif.Deriv
