import Verif.Interp.SplineProps
import Verif.Deriv.Stencil
import Mathlib.Analysis.SpecialFunctions.Trigonometric.Deriv

/-!
# The accuracy of a cubic spline with prescribed slopes (C83)
-/

set_option autoImplicit false

namespace Verif.Interp

open Verif Set

/-- Taylor's theorem with the second derivative as remainder. -/
theorem taylor2 {f : ℝ → ℝ} (hf : ContDiff ℝ 2 f) {B x t : ℝ} (hB : ∀ z ∈ uIcc x (x + t), |deriv (deriv f) z| ≤ B) :
    |f (x + t) - (f x + deriv f x * t)| ≤ B * t ^ 2 / 2 := by
  have := Deriv.taylor_bound f x t B 1 (fun y _ => by
    have := hf.contDiffAt (x := y)
    exact_mod_cast this) (fun y hy => by
    rw [show iteratedDeriv (1 + 1) f = deriv (deriv f) by
      rw [iteratedDeriv_succ', iteratedDeriv_one]]
    exact hB y hy)
  rw [Finset.sum_range_succ, Finset.sum_range_one, iteratedDeriv_zero, iteratedDeriv_one] at this
  simp only [pow_zero, mul_one, Nat.factorial, Nat.cast_one, div_one, pow_one, sq_abs] at this
  norm_num at this
  exact this

/-- Taylor's theorem with the fourth derivative as remainder. -/
theorem taylor4 {f : ℝ → ℝ} (hf : ContDiff ℝ 4 f) {B x t : ℝ} (hB : ∀ z ∈ uIcc x (x + t), |iteratedDeriv 4 f z| ≤ B) :
    |f (x + t) - (f x + deriv f x * t + deriv (deriv f) x * t ^ 2 / 2 + deriv (deriv (deriv f)) x * t ^ 3 / 6)| ≤ B * t ^ 4 / 24 := by
  have := Deriv.taylor_bound f x t B 3 (fun y _ => by
    have := hf.contDiffAt (x := y)
    exact_mod_cast this) (fun y hy => hB y hy)
  rw [Finset.sum_range_succ, Finset.sum_range_succ, Finset.sum_range_succ, Finset.sum_range_one, iteratedDeriv_zero, iteratedDeriv_one,
    show iteratedDeriv 2 f = deriv (deriv f) by rw [iteratedDeriv_succ', iteratedDeriv_one],
    show iteratedDeriv 3 f = deriv (deriv (deriv f)) by rw [iteratedDeriv_succ', iteratedDeriv_succ', iteratedDeriv_one]] at this
  simp only [pow_zero, mul_one, Nat.factorial, Nat.cast_one, div_one, pow_one] at this
  norm_num at this
  have e : |t| ^ 4 = t ^ 4 := by
    rw [show (4 : ℕ) = 2 * 2 by norm_num, pow_mul, sq_abs, ← pow_mul]
  rw [e] at this
  exact this

/-- The error of linear interpolation. -/
theorem line_bound {f : ℝ → ℝ} (hf : ContDiff ℝ 2 f) {B x0 x1 z : ℝ} (hlt : x0 < x1) (hz : z ∈ Icc x0 x1)
    (hB : ∀ w ∈ Icc x0 x1, |deriv (deriv f) w| ≤ B) :
    |f z - ((x1 - z) / (x1 - x0) * f x0 + (z - x0) / (x1 - x0) * f x1)| ≤ B * (x1 - x0) ^ 2 / 8 := by
  have hp : 0 < x1 - x0 := by linarith
  have t0 := taylor2 hf (x := z) (t := x0 - z) (B := B) fun w hw => by
    rw [add_sub_cancel, uIcc_of_ge hz.1] at hw
    exact hB w ⟨hw.1, hw.2.trans hz.2⟩
  have t1 := taylor2 hf (x := z) (t := x1 - z) (B := B) fun w hw => by
    rw [add_sub_cancel, uIcc_of_le hz.2] at hw
    exact hB w ⟨hz.1.trans hw.1, hw.2⟩
  rw [add_sub_cancel] at t0 t1
  have hB0 : 0 ≤ B := (abs_nonneg _).trans (hB z hz)
  generalize hr0 : f x0 - (f z + deriv f z * (x0 - z)) = r0 at t0
  generalize hr1 : f x1 - (f z + deriv f z * (x1 - z)) = r1 at t1
  have e : f z - ((x1 - z) / (x1 - x0) * f x0 + (z - x0) / (x1 - x0) * f x1) = -((x1 - z) * r0 + (z - x0) * r1) / (x1 - x0) := by
    rw [← hr0, ← hr1]
    have : x1 - x0 ≠ 0 := hp.ne'
    field_simp
    ring
  rw [e, abs_div, abs_neg, abs_of_pos hp, div_le_iff₀ hp]
  have h1 : |(x1 - z) * r0 + (z - x0) * r1| ≤ (x1 - z) * (B * (x0 - z) ^ 2 / 2) + (z - x0) * (B * (x1 - z) ^ 2 / 2) := by
    refine (abs_add_le _ _).trans (add_le_add ?_ ?_)
    · rw [abs_mul, abs_of_nonneg (by linarith [hz.2])]
      exact mul_le_mul_of_nonneg_left t0 (by linarith [hz.2])
    · rw [abs_mul, abs_of_nonneg (by linarith [hz.1])]
      exact mul_le_mul_of_nonneg_left t1 (by linarith [hz.1])
  refine h1.trans ?_
  have h2 : (x1 - z) * (z - x0) ≤ (x1 - x0) ^ 2 / 4 := by nlinarith [sq_nonneg ((x1 - z) - (z - x0))]
  have h3 : (x1 - z) * (B * (x0 - z) ^ 2 / 2) + (z - x0) * (B * (x1 - z) ^ 2 / 2) =
      B / 2 * (x1 - x0) * ((x1 - z) * (z - x0)) := by ring
  rw [h3]
  have h4 : 0 ≤ B / 2 * (x1 - x0) := by positivity
  nlinarith [mul_le_mul_of_nonneg_left h2 h4]

/-- The largest error is found at an index where the equations bound it. -/
theorem max_bound (l : ℕ) (E h : ℕ → ℝ) (B : ℝ) (hpos : ∀ i, i ≤ l → 0 < h i)
    (h0 : |h 0 * (2 * E 0 + E 1)| ≤ B * h 0) (hl : |h l * (E l + 2 * E (l + 1))| ≤ B * h l)
    (hin : ∀ i, i < l → |h i * E i + 2 * (h i + h (i + 1)) * E (i + 1) + h (i + 1) * E (i + 2)| ≤ B * (h i + h (i + 1))) :
    ∀ i, i < l + 2 → |E i| ≤ B := by
  obtain ⟨j, hj, hmax⟩ := Finset.exists_max_image (Finset.range (l + 2)) (fun i => |E i|) ⟨0, Finset.mem_range.mpr (by omega)⟩
  rw [Finset.mem_range] at hj
  have hm : ∀ i, i < l + 2 → |E i| ≤ |E j| := fun i hi => hmax i (Finset.mem_range.mpr hi)
  suffices |E j| ≤ B from fun i hi => (hm i hi).trans this
  rcases Nat.eq_zero_or_pos j with rfl | hj0
  · have hp := hpos 0 (by omega)
    have h1 := hm 1 (by omega)
    rw [abs_mul, abs_of_pos hp, mul_comm B] at h0
    have h2 := le_of_mul_le_mul_left h0 hp
    have h3 : |2 * E 0| ≤ |2 * E 0 + E 1| + |E 1| := by
      have := abs_sub (2 * E 0 + E 1) (E 1)
      rwa [add_sub_cancel_right] at this
    rw [abs_mul, abs_of_pos (by norm_num : (0 : ℝ) < 2)] at h3
    linarith
  · obtain ⟨k, rfl⟩ : ∃ k, j = k + 1 := ⟨j - 1, by omega⟩
    rcases Nat.lt_or_ge k l with hk | hk
    · have hp := hpos k (by omega)
      have hp1 := hpos (k + 1) (by omega)
      have h1 := hm k (by omega)
      have h2 := hm (k + 2) (by omega)
      have h3 := hin k hk
      have h4 : |2 * (h k + h (k + 1)) * E (k + 1)| ≤
          |h k * E k + 2 * (h k + h (k + 1)) * E (k + 1) + h (k + 1) * E (k + 2)| + |h k * E k| + |h (k + 1) * E (k + 2)| := by
        have a1 := abs_sub (h k * E k + 2 * (h k + h (k + 1)) * E (k + 1) + h (k + 1) * E (k + 2) - h k * E k) (h (k + 1) * E (k + 2))
        have a2 := abs_sub (h k * E k + 2 * (h k + h (k + 1)) * E (k + 1) + h (k + 1) * E (k + 2)) (h k * E k)
        have e : h k * E k + 2 * (h k + h (k + 1)) * E (k + 1) + h (k + 1) * E (k + 2) - h k * E k - h (k + 1) * E (k + 2) =
            2 * (h k + h (k + 1)) * E (k + 1) := by ring
        rw [e] at a1
        linarith
      rw [abs_mul, abs_mul (h k), abs_mul (h (k + 1)), abs_of_pos hp, abs_of_pos hp1, abs_of_pos (by linarith : 0 < 2 * (h k + h (k + 1)))] at h4
      have h5 : (h k + h (k + 1)) * |E (k + 1)| ≤ (h k + h (k + 1)) * B := by
        nlinarith [mul_le_mul_of_nonneg_left h1 hp.le, mul_le_mul_of_nonneg_left h2 hp1.le]
      exact le_of_mul_le_mul_left h5 (by linarith)
    · obtain rfl : k = l := by omega
      have hp := hpos k le_rfl
      have h1 := hm k (by omega)
      rw [abs_mul, abs_of_pos hp, mul_comm B] at hl
      have h2 := le_of_mul_le_mul_left hl hp
      have h3 : |2 * E (k + 1)| ≤ |E k + 2 * E (k + 1)| + |E k| := by
        have := abs_sub (E k + 2 * E (k + 1)) (E k)
        rwa [add_sub_cancel_left] at this
      rw [abs_mul, abs_of_pos (by norm_num : (0 : ℝ) < 2)] at h3
      linarith

/-- How far the second derivatives of a smooth function are from the equations of a spline. -/
theorem residue {g : ℝ → ℝ} (hg : ContDiff ℝ 4 g) {K x t : ℝ} (ht : t ≠ 0) (hK : ∀ z ∈ uIcc x (x + t), |iteratedDeriv 4 g z| ≤ K) :
    |6 * ((g (x + t) - g x) / t - deriv g x) - t * (2 * deriv (deriv g) x + deriv (deriv g) (x + t))| ≤ 3 / 4 * K * |t| ^ 3 := by
  have hg2 : ContDiff ℝ 2 (deriv (deriv g)) := by
    have h1 : ContDiff ℝ 3 (deriv g) := by
      have : ContDiff ℝ (3 + 1) g := by norm_num; exact hg
      exact (contDiff_succ_iff_deriv.mp this).2.2
    have : ContDiff ℝ (2 + 1) (deriv g) := by norm_num; exact h1
    exact (contDiff_succ_iff_deriv.mp this).2.2
  have t4 := taylor4 hg hK
  have t2 := taylor2 hg2 (x := x) (t := t) (B := K) fun z hz => by
    have := hK z hz
    rwa [iteratedDeriv_succ', iteratedDeriv_succ', iteratedDeriv_succ', iteratedDeriv_one] at this
  generalize hR : g (x + t) - (g x + deriv g x * t + deriv (deriv g) x * t ^ 2 / 2 + deriv (deriv (deriv g)) x * t ^ 3 / 6) = R at t4
  generalize hr : deriv (deriv g) (x + t) - (deriv (deriv g) x + deriv (deriv (deriv g)) x * t) = r at t2
  have e : 6 * ((g (x + t) - g x) / t - deriv g x) - t * (2 * deriv (deriv g) x + deriv (deriv g) (x + t)) = 6 * R / t - t * r := by
    rw [← hR, ← hr]
    field_simp
    ring
  rw [e]
  have hp : 0 < |t| := abs_pos.mpr ht
  have h1 : |6 * R / t| ≤ K * |t| ^ 3 / 4 := by
    rw [abs_div, abs_mul, abs_of_pos (by norm_num : (0 : ℝ) < 6), div_le_iff₀ hp]
    have : t ^ 4 = |t| ^ 4 := by rw [show (4 : ℕ) = 2 * 2 by norm_num, pow_mul, pow_mul, sq_abs]
    rw [this] at t4
    nlinarith
  have h2 : |t * r| ≤ K * |t| ^ 3 / 2 := by
    rw [abs_mul]
    have : t ^ 2 = |t| ^ 2 := (sq_abs t).symm
    rw [this] at t2
    nlinarith
  have := abs_sub (6 * R / t) (t * r)
  linarith

/-- The second derivatives of the spline at the points. -/
theorem second_error {l : ℕ} {x : ℕ → ℝ} {g : ℝ → ℝ} {yp1 ypn : ℝ} {M : ℕ → ℝ} (hx : Increasing (l + 2) x) (hg : ContDiff ℝ 4 g)
    (hsec : Sec 1 l x (fun i => g (x i)) yp1 ypn M) (hy1 : yp1 = deriv g (x 0)) (hyn : ypn = deriv g (x (l + 1)))
    (hb1 : yp1 ≤ 99 / 100 * 10 ^ 99) (hbn : ypn ≤ 99 / 100 * 10 ^ 99) {H K : ℝ} (hH : ∀ i, i ≤ l → x (i + 1) - x i ≤ H)
    (hK : ∀ z ∈ Icc (x 0) (x (l + 1)), |iteratedDeriv 4 g z| ≤ K) :
    ∀ i, i < l + 2 → |M i - deriv (deriv g) (x i)| ≤ 3 / 4 * K * H ^ 2 := by
  have hK0 : 0 ≤ K := (abs_nonneg _).trans (hK (x 0) ⟨le_rfl, (hx 0 (l + 1) (by omega) (by omega)).le⟩)
  have hpos : ∀ i, i ≤ l → 0 < x (i + 1) - x i := fun i hi => by
    have := hx i (i + 1) (by omega) (by omega)
    linarith
  have hle : ∀ i j, i ≤ j → j < l + 2 → x i ≤ x j := fun i j hij hj => by
    have := hx.ordered.le hij hj
    linarith
  have hcube : ∀ i, i ≤ l → 3 / 4 * K * |x (i + 1) - x i| ^ 3 ≤ 3 / 4 * K * H ^ 2 * (x (i + 1) - x i) := by
    intro i hi
    have h1 := hpos i hi
    have h2 := hH i hi
    rw [abs_of_pos h1]
    have h3 : (x (i + 1) - x i) ^ 2 ≤ H ^ 2 := pow_le_pow_left₀ h1.le h2 2
    have h4 : (x (i + 1) - x i) ^ 3 ≤ H ^ 2 * (x (i + 1) - x i) := by nlinarith
    nlinarith [mul_le_mul_of_nonneg_left h4 hK0]
  have hr : ∀ i, i ≤ l → |6 * ((g (x (i + 1)) - g (x i)) / (x (i + 1) - x i) - deriv g (x i)) -
      (x (i + 1) - x i) * (2 * deriv (deriv g) (x i) + deriv (deriv g) (x (i + 1)))| ≤ 3 / 4 * K * H ^ 2 * (x (i + 1) - x i) := by
    intro i hi
    have := residue hg (x := x i) (t := x (i + 1) - x i) (K := K) (hpos i hi).ne' fun z hz => by
      rw [add_sub_cancel, uIcc_of_le (hle i (i + 1) (by omega) (by omega))] at hz
      exact hK z ⟨(hle 0 i (by omega) (by omega)).trans hz.1, hz.2.trans (hle (i + 1) (l + 1) (by omega) (by omega))⟩
    rw [add_sub_cancel] at this
    exact this.trans (hcube i hi)
  have hl : ∀ i, i ≤ l → |6 * ((g (x (i + 1)) - g (x i)) / (x (i + 1) - x i) - deriv g (x (i + 1))) +
      (x (i + 1) - x i) * (2 * deriv (deriv g) (x (i + 1)) + deriv (deriv g) (x i))| ≤ 3 / 4 * K * H ^ 2 * (x (i + 1) - x i) := by
    intro i hi
    have hne : x i - x (i + 1) ≠ 0 := by
      have := hpos i hi
      linarith
    have := residue hg (x := x (i + 1)) (t := x i - x (i + 1)) (K := K) hne fun z hz => by
      rw [add_sub_cancel, uIcc_of_ge (hle i (i + 1) (by omega) (by omega))] at hz
      exact hK z ⟨(hle 0 i (by omega) (by omega)).trans hz.1, hz.2.trans (hle (i + 1) (l + 1) (by omega) (by omega))⟩
    rw [add_sub_cancel, abs_sub_comm (x i)] at this
    refine le_trans (le_of_eq ?_) (this.trans (hcube i hi))
    congr 1
    have h2 := (hpos i hi).ne'
    rw [show (g (x i) - g (x (i + 1))) / (x i - x (i + 1)) = (g (x (i + 1)) - g (x i)) / (x (i + 1) - x i) by
      rw [← neg_sub (x (i + 1)), ← neg_sub (g (x (i + 1))), neg_div_neg_eq]]
    ring
  have f1 := hsec.first
  have fn := hsec.last
  rw [FirstEq, if_neg (not_lt.mpr hb1)] at f1
  rw [LastEq, if_neg (not_lt.mpr hbn)] at fn
  refine max_bound l (fun i => M i - deriv (deriv g) (x i)) (fun i => x (i + 1) - x i) (3 / 4 * K * H ^ 2) hpos ?_ ?_ ?_
  · have := hr 0 (by omega)
    refine le_trans (le_of_eq ?_) this
    congr 1
    simp only [Nat.zero_add]
    linear_combination f1 - 6 * hy1
  · have := hl l le_rfl
    rw [← abs_neg] at this
    refine le_trans (le_of_eq ?_) this
    congr 1
    linear_combination fn + 6 * hyn
  · intro i hi
    have h1 := hl i (by omega)
    have h2 := hr (i + 1) (by omega)
    have h3 := hsec.inner i hi
    rw [InnerEq] at h3
    have h4 := abs_sub (6 * ((g (x (i + 1 + 1)) - g (x (i + 1))) / (x (i + 1 + 1) - x (i + 1)) - deriv g (x (i + 1))) -
      (x (i + 1 + 1) - x (i + 1)) * (2 * deriv (deriv g) (x (i + 1)) + deriv (deriv g) (x (i + 1 + 1))))
      (6 * ((g (x (i + 1)) - g (x i)) / (x (i + 1) - x i) - deriv g (x (i + 1))) +
      (x (i + 1) - x i) * (2 * deriv (deriv g) (x (i + 1)) + deriv (deriv g) (x i)))
    refine le_trans (le_of_eq ?_) (h4.trans ((add_le_add h2 h1).trans (le_of_eq (by ring))))
    congr 1
    simp only [show i + 1 + 1 = i + 2 from rfl]
    linear_combination h3

/-- C83: with the right slopes at the ends the error is of the fourth order in the largest width, that of the first derivative of the
third and that of the second derivative of the second. -/
theorem spline_error (n : ℕ) (x : ℕ → ℝ) (g : ℝ → ℝ) (hx : Increasing n x) (hg : ContDiff ℝ 4 g) (f : Spline)
    (hf : Spline.new (tab n x) (tab n fun i => g (x i)) (deriv g (x 0)) (deriv g (x (n - 1))) = .ret f)
    (hb1 : deriv g (x 0) ≤ 99 / 100 * 10 ^ 99) (hbn : deriv g (x (n - 1)) ≤ 99 / 100 * 10 ^ 99) (H K : ℝ)
    (hH : ∀ i, i + 1 < n → x (i + 1) - x i ≤ H) (hK : ∀ z ∈ Icc (x 0) (x (n - 1)), |iteratedDeriv 4 g z| ≤ K)
    (z : ℝ) (hz : z ∈ Icc (x 0) (x (n - 1))) :
    ∃ v v1 v2, f.eval z = .ret v ∧ f.derivative z = .ret v1 ∧ f.secondDerivative z = .ret v2 ∧
      |g z - v| ≤ 7 / 64 * K * H ^ 4 ∧ |deriv g z - v1| ≤ 7 / 8 * K * H ^ 3 ∧ |deriv (deriv g) z - v2| ≤ 7 / 8 * K * H ^ 2 := by
  have hn : 2 ≤ n := by
    by_contra h
    rw [Spline.new, table_new_spec, if_neg (fun h' => h (by simpa using h'.1))] at hf
    cases hf
  obtain ⟨l, rfl⟩ : ∃ l, n = l + 2 := ⟨n - 2, by omega⟩
  rw [show l + 2 - 1 = l + 1 by omega] at *
  obtain ⟨M, hM, hsec⟩ := spline_new hx.ordered (fun i => g (x i)) (deriv g (x 0)) (deriv g (x (l + 1)))
  rw [hM] at hf
  cases hf
  refine ⟨_, _, _, hsec.eval z, hsec.derivative z, hsec.secondDerivative z, ?_⟩
  have hE := second_error hx hg hsec rfl rfl hb1 hbn (fun i hi => hH i (by omega)) hK
  have hg2 : ContDiff ℝ 2 (deriv (deriv g)) := by
    have h1 : ContDiff ℝ 3 (deriv g) := by
      have : ContDiff ℝ (3 + 1) g := by norm_num; exact hg
      exact (contDiff_succ_iff_deriv.mp this).2.2
    have : ContDiff ℝ (2 + 1) (deriv g) := by norm_num; exact h1
    exact (contDiff_succ_iff_deriv.mp this).2.2
  have hg0 : ContDiff ℝ 2 g := hg.of_le (by norm_num)
  have hcell := loc_cell (y := fun i => g (x i)) hx.ordered z
  generalize loc l x (fun i => g (x i)) z = i at hcell
  have hi := hcell.lt
  have hlt := hx i (i + 1) (by omega) hi
  have hzi : z ∈ Icc (x i) (x (i + 1)) := by
    constructor
    · rcases hcell.low with h | h
      · rw [h]; exact hz.1
      · linarith
    · rcases hcell.high with h | h
      · rw [show i + 1 = l + 1 by omega]; exact hz.2
      · linarith
  have hsub : ∀ w ∈ Icc (x i) (x (i + 1)), w ∈ Icc (x 0) (x (l + 1)) := by
    intro w hw
    have h1 := hx.ordered.le (Nat.zero_le i) (by omega)
    have h2 := hx.ordered.le (show i + 1 ≤ l + 1 by omega) (by omega)
    exact ⟨by linarith [hw.1], by linarith [hw.2]⟩
  have hK0 : 0 ≤ K := (abs_nonneg _).trans (hK z hz)
  have hp : 0 < x (i + 1) - x i := by linarith
  have hHi := hH i hi
  have hH0 : 0 < H := by linarith
  have hsq : (x (i + 1) - x i) ^ 2 ≤ H ^ 2 := pow_le_pow_left₀ hp.le hHi 2
  have hB : ∀ w ∈ Icc (x i) (x (i + 1)), |deriv (deriv g) w - S2 l x (fun i => g (x i)) M w| ≤ 7 / 8 * K * H ^ 2 := by
    intro w hw
    have h1 := line_bound hg2 hlt hw (B := K) fun v hv => by
      have := hK v (hsub v hv)
      rwa [iteratedDeriv_succ', iteratedDeriv_succ', iteratedDeriv_succ', iteratedDeriv_one] at this
    have hS : S2 l x (fun i => g (x i)) M w = (x (i + 1) - w) / (x (i + 1) - x i) * M i + (w - x i) / (x (i + 1) - x i) * M (i + 1) := by
      rw [hsec.pieces2.eq w i (Cell.of_between hx.ordered hi (Or.inl hw)), pp, piecePoly_deriv2 hlt.ne]
    have a0 : 0 ≤ (x (i + 1) - w) / (x (i + 1) - x i) := div_nonneg (by linarith [hw.2]) hp.le
    have a1 : 0 ≤ (w - x i) / (x (i + 1) - x i) := div_nonneg (by linarith [hw.1]) hp.le
    have a2 : (x (i + 1) - w) / (x (i + 1) - x i) + (w - x i) / (x (i + 1) - x i) = 1 := by
      rw [← add_div, show x (i + 1) - w + (w - x i) = x (i + 1) - x i by ring, div_self hp.ne']
    generalize (x (i + 1) - w) / (x (i + 1) - x i) = a at *
    generalize (w - x i) / (x (i + 1) - x i) = b at *
    have e0 := hE i (by omega)
    have e1 := hE (i + 1) hi
    rw [hS]
    have e : deriv (deriv g) w - (a * M i + b * M (i + 1)) = (deriv (deriv g) w - (a * deriv (deriv g) (x i) + b * deriv (deriv g) (x (i + 1)))) -
        (a * (M i - deriv (deriv g) (x i)) + b * (M (i + 1) - deriv (deriv g) (x (i + 1)))) := by ring
    rw [e]
    have h2 : |a * (M i - deriv (deriv g) (x i)) + b * (M (i + 1) - deriv (deriv g) (x (i + 1)))| ≤ 3 / 4 * K * H ^ 2 := by
      refine (abs_add_le _ _).trans ?_
      rw [abs_mul, abs_mul, abs_of_nonneg a0, abs_of_nonneg a1]
      calc _ ≤ a * (3 / 4 * K * H ^ 2) + b * (3 / 4 * K * H ^ 2) :=
            add_le_add (mul_le_mul_of_nonneg_left e0 a0) (mul_le_mul_of_nonneg_left e1 a1)
        _ = 3 / 4 * K * H ^ 2 := by rw [← add_mul, a2, one_mul]
    have h3 := abs_sub (deriv (deriv g) w - (a * deriv (deriv g) (x i) + b * deriv (deriv g) (x (i + 1))))
      (a * (M i - deriv (deriv g) (x i)) + b * (M (i + 1) - deriv (deriv g) (x (i + 1))))
    nlinarith [mul_le_mul_of_nonneg_left hsq hK0]
  have hD : ContDiff ℝ 2 fun w => g w - S0 l x (fun i => g (x i)) M w := hg0.sub hsec.spline.smooth
  obtain ⟨d1, d2⟩ := deriv_sub2 hg0 hsec.spline.smooth
  rw [hsec.deriv0] at d1 d2
  rw [hsec.deriv1] at d2
  have hv0 : g (x i) - S0 l x (fun i => g (x i)) M (x i) = 0 := by rw [hsec.value (by omega)]; ring
  have hv1 : g (x (i + 1)) - S0 l x (fun i => g (x i)) M (x (i + 1)) = 0 := by rw [hsec.value hi]; ring
  refine ⟨?_, ?_, hB z hzi⟩
  · have := line_bound hD hlt hzi (B := 7 / 8 * K * H ^ 2) fun w hw => by
      rw [d2]
      exact hB w hw
    rw [hv0, hv1, mul_zero, mul_zero, add_zero, sub_zero] at this
    have h1 : 0 ≤ 7 / 8 * K * H ^ 2 := by positivity
    nlinarith [mul_le_mul_of_nonneg_left hsq h1]
  · obtain ⟨c, hc, hc0⟩ := exists_deriv_eq_zero hlt hD.continuous.continuousOn (hv0.trans hv1.symm)
    have h1 := Convex.norm_image_sub_le_of_norm_deriv_le (𝕜 := ℝ) (f := deriv fun w => g w - S0 l x (fun i => g (x i)) M w)
      (s := Icc (x i) (x (i + 1))) (C := 7 / 8 * K * H ^ 2) (x := c) (y := z)
      (fun w _ => ((second_facts hD).2.1 w).differentiableAt) (fun w hw => by rw [d2]; exact hB w hw) (convex_Icc _ _)
      ⟨hc.1.le, hc.2.le⟩ hzi
    rw [hc0, sub_zero, d1] at h1
    dsimp only [Real.norm_eq_abs] at h1
    have h2 : |z - c| ≤ H := by
      rw [abs_le]
      constructor <;> linarith [hzi.1, hzi.2, hc.1, hc.2]
    have h3 : 0 ≤ 7 / 8 * K * H ^ 2 := by positivity
    refine h1.trans ((mul_le_mul_of_nonneg_left h2 h3).trans (le_of_eq (by ring)))

/-- The hypotheses of `spline_error` are met by the sine on a table with step `1/10`. -/
example : ∃ f, Spline.new (tab 11 fun i => (i : ℝ) / 10) (tab 11 fun i => Real.sin ((i : ℝ) / 10)) (Real.cos 0) (Real.cos 1) = .ret f ∧
    ∀ z ∈ Icc (0 : ℝ) 1, ∃ v, f.eval z = .ret v ∧ |Real.sin z - v| ≤ 7 / 640000 := by
  have hinc : Increasing 11 fun i => (i : ℝ) / 10 := by
    intro i j hij _
    have : (i : ℝ) < j := by exact_mod_cast hij
    dsimp only
    linarith
  obtain ⟨f, hf, -⟩ := spline_spec 11 (by norm_num) (fun i => (i : ℝ) / 10) (fun i => Real.sin ((i : ℝ) / 10)) (Or.inl hinc)
    (Real.cos 0) (Real.cos 1)
  refine ⟨f, hf, fun z hz => ?_⟩
  have hb : ∀ a : ℝ, Real.cos a ≤ 99 / 100 * 10 ^ 99 := fun a => (Real.cos_le_one a).trans (by norm_num)
  have h0 : ((0 : ℕ) : ℝ) / 10 = 0 := by norm_num
  have h1 : ((10 : ℕ) : ℝ) / 10 = 1 := by norm_num
  have hd : deriv Real.sin = Real.cos := Real.deriv_sin
  obtain ⟨v, _, _, hv, _, _, he, _⟩ := spline_error 11 (fun i => (i : ℝ) / 10) Real.sin hinc Real.contDiff_sin f
    (by
      show Spline.new _ _ (deriv Real.sin (((0 : ℕ) : ℝ) / 10)) (deriv Real.sin (((10 : ℕ) : ℝ) / 10)) = _
      rw [hd, h0, h1]; exact hf)
    (by rw [hd]; exact hb _) (by rw [hd]; exact hb _) (1 / 10) 1
    (fun i _ => by push_cast; linarith)
    (fun w _ => by
      rw [show (4 : ℕ) = 2 * 2 from rfl, Real.iteratedDeriv_even_sin]
      simpa using Real.abs_sin_le_one w) z
    (by
      show z ∈ Icc (((0 : ℕ) : ℝ) / 10) (((10 : ℕ) : ℝ) / 10)
      rw [h0, h1]; exact hz)
  exact ⟨v, hv, he.trans (by norm_num)⟩

end Verif.Interp
