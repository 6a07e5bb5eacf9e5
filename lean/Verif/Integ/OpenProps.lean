import Verif.Integ.OpenLemmas
import Verif.Integ.RombergAccuracy
import Mathlib.MeasureTheory.Function.JacobianOneDim
import Mathlib.MeasureTheory.Integral.IntegralEqImproper

/-!
# Improper integrals (C79)
-/

set_option autoImplicit false

namespace Verif.Integ

open Verif Polynomial MeasureTheory

/-! ## `IntegrateOpen` -/

/-- The extrapolation `ss` is accepted when its last correction is within `eps` of it, relatively. -/
def WithinRel (eps ss dss : ℝ) : Prop := |dss| ≤ eps * |ss|

theorem openSettled_iff (eps : ℝ) : openSettled eps = WithinRel eps := by
  funext ss dss
  refine propext ⟨?_, Or.inl⟩
  rintro (h | ⟨rfl, rfl⟩)
  · exact h
  · simp [WithinRel]

/-- **C79.**  With `2 ≤ K ≤ JMAX ≤ 21`, `IntegrateOpen` returns the extrapolation to step zero from the last `K` of the midpoint
sums with 1, 3, 9, ... panels at the first round, from round `K` on, at which it agrees with the extrapolation from `K - 1` sums
to within `eps`; if there is none, it returns the last extrapolation with `converged == false`. -/
theorem integrateOpen_spec (M K : ℕ) (f : ℝ → ℝ) (a b eps : ℝ) (hK : 2 ≤ K) (hKM : K ≤ M) (hM : M ≤ 21) :
    ∃ r, integrateOpen M K f a b eps = .ret r ∧
      RombergAnswer (1 / 9) (WithinRel eps) (fun k => midpoint f a b (3 ^ k)) K 0 M r := by
  obtain ⟨h, hh, hf⟩ := filled_start (1 / 9) (fun k => midpoint f a b (3 ^ k)) M
  rw [integrateOpen, hh, Outcome.bind_ret]
  obtain ⟨r, hr, ha⟩ := rombergLoop_answer (mid_drives f a b M hM) (openSettled eps) K hK M 0 (by omega) _ h 0 0 hf
    (fun h0 => by omega) hKM
  refine ⟨r, hr, ?_⟩
  rcases ha with ⟨h0, _⟩ | ⟨_, ha⟩
  · omega
  · rw [← openSettled_iff]
    exact ha

example : ∃ r, integrateOpen 20 5 Real.exp 0 1 (1 / 10 ^ 10) = .ret r ∧
    RombergAnswer (1 / 9) (WithinRel (1 / 10 ^ 10)) (fun k => midpoint Real.exp 0 1 (3 ^ k)) 5 0 20 r :=
  integrateOpen_spec 20 5 _ _ _ _ (by norm_num) (by norm_num) (by norm_num)

theorem node_mem_open (a b : ℝ) (hab : a ≠ b) (N : ℕ) (k : ℝ) (h0 : 0 < k) (h1 : k < N) : node a b N k ∈ Set.uIoo a b := by
  have hN' : (0 : ℝ) < N := h0.trans h1
  have e : node a b N k = a + (k / N) * (b - a) := by
    rw [node]
    ring
  have h2 : 0 < k / N := by positivity
  have h3 : k / N < 1 := (div_lt_one hN').mpr h1
  rw [e]
  rcases lt_or_gt_of_ne hab with h | h
  · rw [Set.uIoo_of_lt h]
    constructor <;> nlinarith
  · rw [Set.uIoo_of_gt h]
    constructor <;> nlinarith

theorem midpoint_close (f g : ℝ → ℝ) (a b δ : ℝ) (hδ : 0 ≤ δ) (N : ℕ) (hN : 0 < N) (h : ∀ x ∈ Set.uIoo a b, |f x - g x| ≤ δ) :
    |midpoint f a b N - midpoint g a b N| ≤ |b - a| * δ := by
  have hN' : (0 : ℝ) < N := by exact_mod_cast hN
  rcases eq_or_ne a b with rfl | hab
  · simp [midpoint]
  rw [midpoint, midpoint, ← Finset.sum_sub_distrib]
  refine (Finset.abs_sum_le_sum_abs _ _).trans ?_
  have : ∀ k ∈ Finset.range N, |(b - a) / N * f (node a b N (k + 1 / 2)) - (b - a) / N * g (node a b N (k + 1 / 2))| ≤
      |b - a| * δ / N := by
    intro k hk
    have hk' : (k : ℝ) + 1 ≤ N := by exact_mod_cast Finset.mem_range.mp hk
    have hk0 : (0 : ℝ) ≤ k := Nat.cast_nonneg k
    have h1 := h _ (node_mem_open a b hab N (k + 1 / 2) (by linarith) (by linarith))
    rw [← mul_sub, abs_mul, abs_div, Nat.abs_cast, mul_div_right_comm]
    exact mul_le_mul_of_nonneg_left h1 (by positivity)
  refine (Finset.sum_le_sum this).trans ?_
  rw [Finset.sum_const, Finset.card_range, nsmul_eq_mul, mul_div_cancel₀ _ hN'.ne']

theorem RombergAnswer.unique {q : ℝ} {stop : ℝ → ℝ → Prop} {T : ℕ → ℝ} {K M : ℕ} {r r' : Result}
    (h : RombergAnswer q stop T K 0 M r) (h' : RombergAnswer q stop T K 0 M r') : r = r' := by
  obtain ⟨i, h1, _, h3, h4, h5, h6, h7, h8⟩ := h
  obtain ⟨i', h1', _, h3', h4', h5', h6', h7', h8'⟩ := h'
  have hii : i = i' := by
    rcases lt_trichotomy i i' with hlt | heq | hgt
    · rcases h8 with h8 | h8
      · exact absurd h8.2 (h7' i (Nat.zero_le _) h3 hlt)
      · omega
    · exact heq
    · rcases h8' with h8' | h8'
      · exact absurd h8'.2 (h7 i' (Nat.zero_le _) h3' hgt)
      · omega
  subst hii
  ext
  · rw [h5, h5']
  · rw [h6, h6']
  · rw [h1, h1']
  · rcases h8 with h8 | h8 <;> rcases h8' with h8' | h8'
    · rw [h8.1, h8'.1]
    · exact absurd h8.2 h8'.2.2
    · exact absurd h8'.2 h8.2.2
    · rw [h8.1, h8'.1]

/-- **C79.**  `IntegrateOpen` never looks at the ends of the interval: integrands that agree strictly inside it get the same
answer, value, error estimate, iterations and convergence flag. -/
theorem integrateOpen_congr (M K : ℕ) (f g : ℝ → ℝ) (a b eps : ℝ) (hK : 2 ≤ K) (hKM : K ≤ M) (hM : M ≤ 21)
    (h : ∀ x ∈ Set.uIoo a b, f x = g x) : integrateOpen M K f a b eps = integrateOpen M K g a b eps := by
  obtain ⟨r, hr, ha⟩ := integrateOpen_spec M K f a b eps hK hKM hM
  obtain ⟨r', hr', ha'⟩ := integrateOpen_spec M K g a b eps hK hKM hM
  have e : (fun k => midpoint f a b (3 ^ k)) = fun k => midpoint g a b (3 ^ k) := by
    funext k
    have := midpoint_close f g a b 0 le_rfl (3 ^ k) (by positivity) (fun x hx => by simp [h x hx])
    rw [mul_zero] at this
    exact sub_eq_zero.mp (abs_nonpos_iff.mp this)
  rw [e] at ha
  rw [hr, hr', ha.unique ha']

example : integrateOpen 20 5 (fun x => if x = 0 ∨ x = 1 then 7 else x) 0 1 (1 / 10 ^ 10) =
    integrateOpen 20 5 (fun x => x) 0 1 (1 / 10 ^ 10) := by
  refine integrateOpen_congr 20 5 _ _ 0 1 _ (by norm_num) (by norm_num) (by norm_num) ?_
  intro x hx
  rw [Set.uIoo_of_lt (by norm_num)] at hx
  simp [hx.1.ne', hx.2.ne]

/-- **C79.**  Extrapolation from `K` midpoint sums is exact on polynomials of degree at most `2K - 1`. -/
theorem open_exact (p : ℝ[X]) (a b : ℝ) (K j : ℕ) (hK : 1 ≤ K) (hKj : K ≤ j + 1) (hp : p.natDegree ≤ 2 * K - 1) :
    extrapolated (1 / 9) (fun k => midpoint (fun x => p.eval x) a b (3 ^ k)) K j = ∫ x in a..b, p.eval x := by
  rw [extrapolated_poly (1 / 9) (by norm_num) (by norm_num) (midExpansion p a b) _ (midpoint_poly p a b) K j hKj,
    midExpansion_zero]
  have := midExpansion_degree p a b
  omega

/-- **C79.**  Whatever the tolerance and whether or not it reports convergence, the answer of `IntegrateOpen` is as accurate as
polynomial approximation inside the interval: if some polynomial of degree at most `2K - 1` is within `δ` of the integrand
there, the error is at most `7/3` times the length of the interval times `δ`.  With `δ = 0` it is exact. -/
theorem integrateOpen_accuracy (M K : ℕ) (f : ℝ → ℝ) (a b eps δ : ℝ) (p : ℝ[X]) (hK : 2 ≤ K) (hKM : K ≤ M) (hM : M ≤ 21)
    (hδ : 0 ≤ δ) (hp : p.natDegree ≤ 2 * K - 1) (hf : IntervalIntegrable f volume a b)
    (hfp : ∀ x ∈ Set.uIoo a b, |f x - p.eval x| ≤ δ) :
    ∃ r, integrateOpen M K f a b eps = .ret r ∧ |r.value - ∫ x in a..b, f x| ≤ 7 / 3 * |b - a| * δ := by
  obtain ⟨r, hr, i, _, _, h3, _, h5, _⟩ := integrateOpen_spec M K f a b eps hK hKM hM
  refine ⟨r, hr, ?_⟩
  have h1 := open_exact p a b K i (by omega) h3 hp
  have h2 := extrapolated_sub (1 / 9) (fun k => midpoint f a b (3 ^ k)) (fun k => midpoint (fun x => p.eval x) a b (3 ^ k)) K i
  have h4 := extrapolated_le (1 / 9) (by norm_num) (by norm_num)
    (fun k => midpoint f a b (3 ^ k) - midpoint (fun x => p.eval x) a b (3 ^ k)) (|b - a| * δ)
    (fun k => midpoint_close f _ a b δ hδ (3 ^ k) (by positivity) hfp) K i (by omega) h3
  rw [← h2, h1, ← h5] at h4
  have h6 := integral_close f (fun x => p.eval x) a b δ hf (p.continuous.intervalIntegrable _ _) hfp
  have hδ' : 0 ≤ |b - a| * δ := mul_nonneg (abs_nonneg _) hδ
  have h7 := mul_le_mul_of_nonneg_right (amp_ninth (K - 1)) hδ'
  rw [abs_le] at h4 h6 ⊢
  constructor <;> linarith [h4.1, h4.2, h6.1, h6.2]

/-- **C79, corner.**  With fewer rounds than extrapolation points the answer is zero for every integrand, marked as not
converged but with error estimate zero. -/
theorem integrateOpen_short (M K : ℕ) (f : ℝ → ℝ) (a b eps : ℝ) (hKM : M < K) (hM : M ≤ 21) :
    integrateOpen M K f a b eps = .ret ⟨0, 0, M, false⟩ := by
  obtain ⟨h, hh, hf⟩ := filled_start (1 / 9) (fun k => midpoint f a b (3 ^ k)) M
  rw [integrateOpen, hh, Outcome.bind_ret]
  exact rombergLoop_short (mid_drives f a b M hM) _ K hKM M 0 (by omega) _ h hf

/-! ## Changes of variable -/

theorem upper_image (a : ℝ) : (fun t : ℝ => a + 1 / t - 1) '' Set.Ioo 0 1 = Set.Ioi a := by
  ext x
  simp only [Set.mem_image, Set.mem_Ioo, Set.mem_Ioi]
  constructor
  · rintro ⟨t, ⟨h0, h1⟩, rfl⟩
    have : 1 < 1 / t := by rw [lt_div_iff₀ h0]; linarith
    linarith
  · intro h
    refine ⟨1 / (x - a + 1), ⟨by apply div_pos <;> linarith, by rw [div_lt_one] <;> linarith⟩, ?_⟩
    rw [one_div_one_div]
    ring

theorem lower_image (b : ℝ) : (fun t : ℝ => b - 1 / t + 1) '' Set.Ioo 0 1 = Set.Iio b := by
  ext x
  simp only [Set.mem_image, Set.mem_Ioo, Set.mem_Iio]
  constructor
  · rintro ⟨t, ⟨h0, h1⟩, rfl⟩
    have : 1 < 1 / t := by rw [lt_div_iff₀ h0]; linarith
    linarith
  · intro h
    refine ⟨1 / (b - x + 1), ⟨by apply div_pos <;> linarith, by rw [div_lt_one] <;> linarith⟩, ?_⟩
    rw [one_div_one_div]
    ring

theorem upper_deriv (a t : ℝ) (ht : 0 < t) : HasDerivAt (fun t : ℝ => a + 1 / t - 1) (-(1 / (t * t))) t := by
  have := ((hasDerivAt_inv ht.ne').const_add a).sub_const 1
  simp only [one_div]
  rw [← pow_two]
  simpa using this

theorem lower_deriv (b t : ℝ) (ht : 0 < t) : HasDerivAt (fun t : ℝ => b - 1 / t + 1) (1 / (t * t)) t := by
  have := ((hasDerivAt_inv ht.ne').const_sub b).add_const 1
  simp only [one_div]
  rw [← pow_two]
  simpa using this

theorem upper_inj (a : ℝ) : Set.InjOn (fun t : ℝ => a + 1 / t - 1) (Set.Ioo 0 1) := by
  intro s hs t ht h
  have : 1 / s = 1 / t := by simpa using h
  simpa using this

theorem lower_inj (b : ℝ) : Set.InjOn (fun t : ℝ => b - 1 / t + 1) (Set.Ioo 0 1) := by
  intro s hs t ht h
  have : 1 / s = 1 / t := by simpa using h
  simpa using this

/-- **C79.**  The integrand handed on by `IntegrateUpperInf` has the same integral over the unit interval as the caller's over
`[a, ∞)`, for every integrand. -/
theorem upperInf_integral (f : ℝ → ℝ) (a : ℝ) : ∫ t in (0 : ℝ)..1, upperInf f a t = ∫ x in Set.Ioi a, f x := by
  rw [← upper_image a, integral_image_eq_integral_abs_deriv_smul measurableSet_Ioo
    (fun t ht => (upper_deriv a t ht.1).hasDerivWithinAt) (upper_inj a), intervalIntegral.integral_of_le (by norm_num),
    integral_Ioc_eq_integral_Ioo]
  refine setIntegral_congr_fun measurableSet_Ioo fun t ht => ?_
  have h0 : 0 < t := ht.1
  simp only [upperInf, smul_eq_mul]
  rw [if_neg (not_le.mpr h0), abs_neg, abs_of_pos (by positivity)]
  ring

/-- **C79.**  The same for `IntegrateLowerInf` and `(-∞, b]`. -/
theorem lowerInf_integral (f : ℝ → ℝ) (b : ℝ) : ∫ t in (0 : ℝ)..1, lowerInf f b t = ∫ x in Set.Iic b, f x := by
  rw [integral_Iic_eq_integral_Iio, ← lower_image b, integral_image_eq_integral_abs_deriv_smul measurableSet_Ioo
    (fun t ht => (lower_deriv b t ht.1).hasDerivWithinAt) (lower_inj b), intervalIntegral.integral_of_le (by norm_num),
    integral_Ioc_eq_integral_Ioo]
  refine setIntegral_congr_fun measurableSet_Ioo fun t ht => ?_
  have h0 : 0 < t := ht.1
  simp only [lowerInf, smul_eq_mul]
  rw [if_neg (not_le.mpr h0), abs_of_pos (by positivity)]
  ring

theorem upperInf_integrable (f : ℝ → ℝ) (a : ℝ) (h : IntegrableOn f (Set.Ioi a)) :
    IntervalIntegrable (upperInf f a) volume 0 1 := by
  rw [intervalIntegrable_iff_integrableOn_Ioo_of_le (by norm_num)]
  rw [← upper_image a, integrableOn_image_iff_integrableOn_abs_deriv_smul measurableSet_Ioo
    (fun t ht => (upper_deriv a t ht.1).hasDerivWithinAt) (upper_inj a)] at h
  refine h.congr_fun (fun t ht => ?_) measurableSet_Ioo
  have h0 : 0 < t := ht.1
  simp only [upperInf, smul_eq_mul]
  rw [if_neg (not_le.mpr h0), abs_neg, abs_of_pos (by positivity)]
  ring

theorem lowerInf_integrable (f : ℝ → ℝ) (b : ℝ) (h : IntegrableOn f (Set.Iic b)) :
    IntervalIntegrable (lowerInf f b) volume 0 1 := by
  rw [intervalIntegrable_iff_integrableOn_Ioo_of_le (by norm_num)]
  rw [integrableOn_Iic_iff_integrableOn_Iio, ← lower_image b,
    integrableOn_image_iff_integrableOn_abs_deriv_smul measurableSet_Ioo
    (fun t ht => (lower_deriv b t ht.1).hasDerivWithinAt) (lower_inj b)] at h
  refine h.congr_fun (fun t ht => ?_) measurableSet_Ioo
  have h0 : 0 < t := ht.1
  simp only [lowerInf, smul_eq_mul]
  rw [if_neg (not_le.mpr h0), abs_of_pos (by positivity)]
  ring

theorem lowerSing_image (a b : ℝ) (hab : a ≤ b) :
    (fun t : ℝ => a + t * t) '' Set.Ioo 0 (Real.sqrt (b - a)) = Set.Ioo a b := by
  ext x
  simp only [Set.mem_image, Set.mem_Ioo]
  constructor
  · rintro ⟨t, ⟨h0, h1⟩, rfl⟩
    have := (Real.lt_sqrt h0.le).mp h1
    constructor <;> nlinarith
  · rintro ⟨h0, h1⟩
    refine ⟨Real.sqrt (x - a), ⟨Real.sqrt_pos.mpr (by linarith), Real.sqrt_lt_sqrt (by linarith) (by linarith)⟩, ?_⟩
    rw [Real.mul_self_sqrt (by linarith)]
    ring

theorem upperSing_image (a b : ℝ) (hab : a ≤ b) :
    (fun t : ℝ => b - t * t) '' Set.Ioo 0 (Real.sqrt (b - a)) = Set.Ioo a b := by
  ext x
  simp only [Set.mem_image, Set.mem_Ioo]
  constructor
  · rintro ⟨t, ⟨h0, h1⟩, rfl⟩
    have := (Real.lt_sqrt h0.le).mp h1
    constructor <;> nlinarith
  · rintro ⟨h0, h1⟩
    refine ⟨Real.sqrt (b - x), ⟨Real.sqrt_pos.mpr (by linarith), Real.sqrt_lt_sqrt (by linarith) (by linarith)⟩, ?_⟩
    rw [Real.mul_self_sqrt (by linarith)]
    ring

theorem lowerSing_deriv (a t : ℝ) : HasDerivAt (fun t : ℝ => a + t * t) (2 * t) t := by
  exact (((hasDerivAt_id' t).mul (hasDerivAt_id' t)).const_add a).congr_deriv (by ring)

theorem upperSing_deriv (b t : ℝ) : HasDerivAt (fun t : ℝ => b - t * t) (-(2 * t)) t := by
  exact (((hasDerivAt_id' t).mul (hasDerivAt_id' t)).const_sub b).congr_deriv (by ring)

theorem sq_inj (c : ℝ) (s t : ℝ) (hs : s ∈ Set.Ioo 0 c) (ht : t ∈ Set.Ioo 0 c) (h : s * s = t * t) : s = t := by
  have h0 : 0 < s := hs.1
  have h1 : 0 < t := ht.1
  nlinarith [mul_self_eq_mul_self_iff.mp h]

theorem lowerSing_inj (a c : ℝ) : Set.InjOn (fun t : ℝ => a + t * t) (Set.Ioo 0 c) := by
  intro s hs t ht h
  exact sq_inj c s t hs ht (by simpa using h)

theorem upperSing_inj (b c : ℝ) : Set.InjOn (fun t : ℝ => b - t * t) (Set.Ioo 0 c) := by
  intro s hs t ht h
  exact sq_inj c s t hs ht (by simpa using h)

/-- **C79.**  The integrand handed on by `IntegrateLowerSingular` has the integral of the caller's over `[a, b]`. -/
theorem lowerSing_integral (f : ℝ → ℝ) (a b : ℝ) (hab : a ≤ b) :
    ∫ t in (0 : ℝ)..Real.sqrt (b - a), lowerSing f a t = ∫ x in a..b, f x := by
  rw [intervalIntegral.integral_of_le hab, integral_Ioc_eq_integral_Ioo, ← lowerSing_image a b hab,
    integral_image_eq_integral_abs_deriv_smul measurableSet_Ioo
    (fun t _ => (lowerSing_deriv a t).hasDerivWithinAt) (lowerSing_inj a _),
    intervalIntegral.integral_of_le (Real.sqrt_nonneg _), integral_Ioc_eq_integral_Ioo]
  refine setIntegral_congr_fun measurableSet_Ioo fun t ht => ?_
  have h0 : 0 < t := ht.1
  simp only [lowerSing, smul_eq_mul]
  rw [abs_of_pos (by positivity)]
  ring

/-- **C79.**  The same for `IntegrateUpperSingular`. -/
theorem upperSing_integral (f : ℝ → ℝ) (a b : ℝ) (hab : a ≤ b) :
    ∫ t in (0 : ℝ)..Real.sqrt (b - a), upperSing f b t = ∫ x in a..b, f x := by
  rw [intervalIntegral.integral_of_le hab, integral_Ioc_eq_integral_Ioo, ← upperSing_image a b hab,
    integral_image_eq_integral_abs_deriv_smul measurableSet_Ioo
    (fun t _ => (upperSing_deriv b t).hasDerivWithinAt) (upperSing_inj b _),
    intervalIntegral.integral_of_le (Real.sqrt_nonneg _), integral_Ioc_eq_integral_Ioo]
  refine setIntegral_congr_fun measurableSet_Ioo fun t ht => ?_
  have h0 : 0 < t := ht.1
  simp only [upperSing, smul_eq_mul]
  rw [abs_neg, abs_of_pos (by positivity)]
  ring

theorem lowerSing_integrable (f : ℝ → ℝ) (a b : ℝ) (hab : a ≤ b) (h : IntervalIntegrable f volume a b) :
    IntervalIntegrable (lowerSing f a) volume 0 (Real.sqrt (b - a)) := by
  rw [intervalIntegrable_iff_integrableOn_Ioo_of_le (Real.sqrt_nonneg _)]
  rw [intervalIntegrable_iff_integrableOn_Ioo_of_le hab, ← lowerSing_image a b hab,
    integrableOn_image_iff_integrableOn_abs_deriv_smul measurableSet_Ioo
    (fun t _ => (lowerSing_deriv a t).hasDerivWithinAt) (lowerSing_inj a _)] at h
  refine h.congr_fun (fun t ht => ?_) measurableSet_Ioo
  have h0 : 0 < t := ht.1
  simp only [lowerSing, smul_eq_mul]
  rw [abs_of_pos (by positivity)]
  ring

theorem upperSing_integrable (f : ℝ → ℝ) (a b : ℝ) (hab : a ≤ b) (h : IntervalIntegrable f volume a b) :
    IntervalIntegrable (upperSing f b) volume 0 (Real.sqrt (b - a)) := by
  rw [intervalIntegrable_iff_integrableOn_Ioo_of_le (Real.sqrt_nonneg _)]
  rw [intervalIntegrable_iff_integrableOn_Ioo_of_le hab, ← upperSing_image a b hab,
    integrableOn_image_iff_integrableOn_abs_deriv_smul measurableSet_Ioo
    (fun t _ => (upperSing_deriv b t).hasDerivWithinAt) (upperSing_inj b _)] at h
  refine h.congr_fun (fun t ht => ?_) measurableSet_Ioo
  have h0 : 0 < t := ht.1
  simp only [upperSing, smul_eq_mul]
  rw [abs_neg, abs_of_pos (by positivity)]
  ring

end Verif.Integ
