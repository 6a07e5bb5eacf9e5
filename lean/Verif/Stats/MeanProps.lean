import Verif.Stats.Sums

/-!
# Means, variance and moments (C74)
-/

set_option autoImplicit false

namespace Verif.Stats

open Verif

/-- **C74, mean.** -/
theorem avg_spec (d : List ℝ) : (d = [] → avg d = .exn statErr) ∧ (d ≠ [] → avg d = .ret (d.sum / d.length)) :=
  ⟨fun h => by subst h; simp [avg], fun h => avg_eq h⟩

/-- **C74, the mean lies between the extremes.** -/
theorem mean_between (d : List ℝ) (h : d ≠ []) (lo hi : ℝ) (hb : ∀ x ∈ d, lo ≤ x ∧ x ≤ hi) : lo ≤ mean d ∧ mean d ≤ hi := by
  have hn : (0 : ℝ) < d.length := by exact_mod_cast List.length_pos_iff.2 h
  have h1 := List.card_nsmul_le_sum d lo fun x hx => (hb x hx).1
  have h2 := List.sum_le_card_nsmul d hi fun x hx => (hb x hx).2
  rw [nsmul_eq_mul] at h1 h2
  rw [mean]
  constructor
  · rw [le_div_iff₀ hn]; linarith
  · rw [div_le_iff₀ hn]; linarith

theorem length_sub_one {d : List ℝ} (h : 2 ≤ d.length) : (0 : ℝ) < (d.length : ℝ) - 1 := by
  have : (2 : ℝ) ≤ d.length := by exact_mod_cast h
  linarith

theorem avgVar_loop (d : List ℝ) :
    forRange d.length (0, 0) (avgVarStep d (mean d)) = .ret (devSum 2 d, 0) := by
  rw [forRange_sum d.length (0, 0) (avgVarStep d (mean d))
    (fun i => ((d.getD i 0 - mean d) * (d.getD i 0 - mean d), d.getD i 0 - mean d))
    fun i hi s => by simp only [avgVarStep, index_getD hi]; rfl]
  congr 1
  ext
  · simp only [Prod.fst_add, Prod.fst_sum, zero_add, devSum_eq]
    exact Finset.sum_congr rfl fun i _ => by ring
  · simp only [Prod.snd_add, Prod.snd_sum, zero_add]
    rw [sum_getD d fun x => x - mean d, sum_dev]

/-- **C74, variance.**  For two or more values the mean and the sum of squared deviations over `n - 1`. -/
theorem avgVar_spec (d : List ℝ) (h : 2 ≤ d.length) :
    avgVar d = .ret (mean d, (d.map fun x => (x - mean d) ^ 2).sum / ((d.length : ℝ) - 1)) ∧
    variance d = .ret ((d.map fun x => (x - mean d) ^ 2).sum / ((d.length : ℝ) - 1)) ∧
    stdDev d = .ret (Real.sqrt ((d.map fun x => (x - mean d) ^ 2).sum / ((d.length : ℝ) - 1))) ∧
    avgStdDev d = .ret (mean d, Real.sqrt ((d.map fun x => (x - mean d) ^ 2).sum / ((d.length : ℝ) - 1))) := by
  have hd : d ≠ [] := by rintro rfl; simp at h
  have hp := length_sub_one h
  have h1 : avgVar d = .ret (mean d, devSum 2 d / ((d.length : ℝ) - 1)) := by
    rw [avgVar, if_neg (by omega), avg_eq hd, Outcome.bind_ret, avgVar_loop, Outcome.bind_ret,
      quot_of_ne (cast_length_ne hd), Outcome.bind_ret, quot_of_ne hp.ne', Outcome.bind_ret]
    simp
  have hnn : 0 ≤ devSum 2 d / ((d.length : ℝ) - 1) := div_nonneg (devSum_two_nonneg d) hp.le
  have h2 : avgStdDev d = .ret (mean d, Real.sqrt (devSum 2 d / ((d.length : ℝ) - 1))) := by
    rw [avgStdDev, if_neg (by omega), h1, Outcome.bind_ret, stdSqrt, if_neg (not_lt.2 hnn), Outcome.bind_ret]
  exact ⟨h1, by rw [variance, h1]; rfl, by rw [stdDev, h2]; rfl, h2⟩

/-- **C74, too few values.**  No value is refused; for a single value the variance is `0 / 0`, which is not a number. -/
theorem avgVar_few (a : ℝ) : avgVar [] = .exn statErr ∧ variance [a] = .ub := by
  constructor
  · simp [avgVar]
  · have h1 : avg [a] = .ret (mean [a]) := avg_eq (by simp)
    rw [variance, avgVar, if_neg (by simp), h1, Outcome.bind_ret, avgVar_loop, Outcome.bind_ret,
      quot_of_ne (cast_length_ne (by simp)), Outcome.bind_ret, quot, if_pos (by simp)]
    rfl

/-- **C74, sign of the variance.**  It is never negative and it is zero exactly when all values are equal. -/
theorem variance_sign (d : List ℝ) (h : 2 ≤ d.length) : ∃ v, variance d = .ret v ∧ 0 ≤ v ∧
    (v = 0 ↔ ∀ x ∈ d, ∀ y ∈ d, x = y) := by
  have hp := length_sub_one h
  refine ⟨_, (avgVar_spec d h).2.1, div_nonneg (devSum_two_nonneg d) hp.le, ?_⟩
  rw [div_eq_zero_iff, or_iff_left hp.ne']
  exact devSum_two_eq_zero d

/-- **C74, change of units.** -/
theorem variance_affine (d : List ℝ) (h : 2 ≤ d.length) (a b : ℝ) : ∃ v, variance d = .ret v ∧
    variance (d.map fun x => a * x + b) = .ret (a ^ 2 * v) := by
  refine ⟨_, (avgVar_spec d h).2.1, ?_⟩
  rw [(avgVar_spec (d.map fun x => a * x + b) (by simpa using h)).2.1]
  congr 1
  have := devSum_affine (d := d) 2 a b
  unfold devSum at this
  rw [this, List.length_map]
  ring

/-! ## Moments -/

instance : Zero Sums := ⟨⟨0, 0, 0, 0, 0⟩⟩

theorem moments_loop (d : List ℝ) (m : ℝ) (n : ℕ) (hn : n ≤ d.length) :
    forRange n ⟨0, 0, 0, 0, 0⟩ (momentsStep d m) =
      .ret ⟨∑ i ∈ Finset.range n, |d.getD i 0 - m|, ∑ i ∈ Finset.range n, (d.getD i 0 - m),
        ∑ i ∈ Finset.range n, (d.getD i 0 - m) ^ 2, ∑ i ∈ Finset.range n, (d.getD i 0 - m) ^ 3,
        ∑ i ∈ Finset.range n, (d.getD i 0 - m) ^ 4⟩ := by
  induction n with
  | zero => simp [forRange]
  | succ n ih =>
    rw [forRange, ih (by omega), Outcome.bind_ret, momentsStep, index_getD (by omega), Outcome.bind_ret]
    simp only [Finset.sum_range_succ]
    congr 2 <;> ring

/-- **C74, moments.**  For two or more values that are not all equal: mean, mean absolute deviation, variance and standard
deviation over `n - 1`, skewness and excess kurtosis from the third and fourth powers of the standardised deviations. -/
theorem moments_spec (d : List ℝ) (h : 2 ≤ d.length) (hne : ¬ ∀ x ∈ d, ∀ y ∈ d, x = y) : ∃ r, moments d = .ret r ∧
    r.ave = mean d ∧ r.adev = mean (d.map fun x => |x - mean d|) ∧
    r.var = (d.map fun x => (x - mean d) ^ 2).sum / ((d.length : ℝ) - 1) ∧ r.sdev = Real.sqrt r.var ∧ 0 < r.sdev ∧
    r.skew = mean (d.map fun x => ((x - mean d) / r.sdev) ^ 3) ∧
    r.curt = mean (d.map fun x => ((x - mean d) / r.sdev) ^ 4) - 3 := by
  have hd : d ≠ [] := by rintro rfl; simp at h
  have hn := cast_length_ne hd
  have hp := length_sub_one h
  have hpos : 0 < devSum 2 d := lt_of_le_of_ne (devSum_two_nonneg d) fun e => hne ((devSum_two_eq_zero d).1 e.symm)
  have hv : 0 < devSum 2 d / ((d.length : ℝ) - 1) := div_pos hpos hp
  have hs : 0 < Real.sqrt (devSum 2 d / ((d.length : ℝ) - 1)) := Real.sqrt_pos.2 hv
  have hsq : Real.sqrt (devSum 2 d / ((d.length : ℝ) - 1)) ^ 2 = devSum 2 d / ((d.length : ℝ) - 1) := Real.sq_sqrt hv.le
  have hpow : ∀ (k : ℕ) (c : ℝ), mean (d.map fun x => ((x - mean d) / c) ^ k) = devSum k d / (d.length * c ^ k) := by
    intro k c
    rw [mean, List.length_map, devSum]
    rw [show (d.map fun x => ((x - mean d) / c) ^ k) = d.map fun x => (x - mean d) ^ k * (c ^ k)⁻¹ from
      List.map_congr_left fun x _ => by rw [div_pow, div_eq_mul_inv], List.sum_map_mul_right]
    rw [div_eq_mul_inv, div_eq_mul_inv, mul_inv]
    ring
  have hrun : moments d = .ret ⟨mean d, mean (d.map fun x => |x - mean d|), Real.sqrt (devSum 2 d / ((d.length : ℝ) - 1)),
      devSum 2 d / ((d.length : ℝ) - 1),
      devSum 3 d / (d.length * (devSum 2 d / ((d.length : ℝ) - 1)) * Real.sqrt (devSum 2 d / ((d.length : ℝ) - 1))),
      devSum 4 d / (d.length * (devSum 2 d / ((d.length : ℝ) - 1)) * (devSum 2 d / ((d.length : ℝ) - 1))) - 3⟩ := by
    have hmean : d.sum / d.length = mean d := rfl
    rw [moments, if_neg (by omega), sum_loop, Outcome.bind_ret, quot_of_ne hn, Outcome.bind_ret, hmean,
      moments_loop d (mean d) d.length le_rfl, Outcome.bind_ret]
    have e1 : ∑ i ∈ Finset.range d.length, (d.getD i 0 - mean d) = 0 := by rw [sum_getD d fun x => x - mean d, sum_dev]
    simp only [e1, ← devSum_eq, mul_zero, quot_of_ne hn, Outcome.bind_ret, zero_div, sub_zero, quot_of_ne hp.ne', stdSqrt,
      if_neg (not_lt.2 hv.le), momentsFinish, if_pos hv.ne']
    rw [quot_of_ne (by positivity), Outcome.bind_ret, quot_of_ne (by positivity), Outcome.bind_ret]
    congr 2
    change _ = (List.map (fun x => |x - mean d|) d).sum / ((List.map (fun x => |x - mean d|) d).length : ℝ)
    rw [List.length_map, ← sum_getD d fun x => |x - mean d|]
  refine ⟨_, hrun, rfl, rfl, rfl, rfl, hs, ?_, ?_⟩
  · dsimp only
    rw [hpow, pow_succ, hsq]
    ring
  · dsimp only
    rw [hpow, show (4 : ℕ) = 2 * 2 from rfl, pow_mul, hsq]
    ring

/-- **C74, moments refuse** fewer than two values and constant data. -/
theorem moments_refuses (d : List ℝ) (h : d.length ≤ 1 ∨ ∀ x ∈ d, ∀ y ∈ d, x = y) : moments d = .exn statErr := by
  by_cases hl : d.length ≤ 1
  · rw [moments, if_pos hl]
  have hc := h.resolve_left hl
  have hd : d ≠ [] := by rintro rfl; simp at hl
  have hn := cast_length_ne hd
  have hp := length_sub_one (d := d) (by omega)
  have hmean : d.sum / d.length = mean d := rfl
  rw [moments, if_neg hl, sum_loop, Outcome.bind_ret, quot_of_ne hn, Outcome.bind_ret, hmean,
    moments_loop d (mean d) d.length le_rfl, Outcome.bind_ret]
  have e1 : ∑ i ∈ Finset.range d.length, (d.getD i 0 - mean d) = 0 := by rw [sum_getD d fun x => x - mean d, sum_dev]
  simp only [e1, ← devSum_eq, mul_zero, quot_of_ne hn, Outcome.bind_ret, zero_div, sub_zero, quot_of_ne hp.ne', stdSqrt,
    (devSum_two_eq_zero d).2 hc, lt_irrefl, if_false, momentsFinish]
  simp

/-! ## Geometric and harmonic means -/

/-- A loop that checks every value and throws at the first bad one. -/
theorem forRange_check {α : Type} (d : List ℝ) (good : ℝ → Prop) (body : α → ℕ → Outcome α) (s : α)
    (hbad : ∀ t i, i < d.length → ¬ good (d.getD i 0) → body t i = .exn statErr)
    (hgood : ∀ t i, i < d.length → good (d.getD i 0) → ∃ t', body t i = .ret t')
    (h : ∃ x ∈ d, ¬ good x) : forRange d.length s body = .exn statErr := by
  have hsat : ∀ n ≤ d.length, (forRange n s body).Sat (fun _ => ∀ k < n, good (d.getD k 0)) (fun e => e = statErr) := by
    intro n hn
    refine forRange_sat (fun i _ => ∀ k < i, good (d.getD k 0)) (fun e => e = statErr) n s body (by simp) ?_
    intro i t hi hP
    by_cases hg : good (d.getD i 0)
    · obtain ⟨t', ht'⟩ := hgood t i (by omega) hg
      rw [ht']
      intro k hk
      rcases Nat.lt_succ_iff_lt_or_eq.1 hk with hk | rfl
      · exact hP k hk
      · exact hg
    · rw [hbad t i (by omega) hg]
      rfl
  have := hsat d.length le_rfl
  cases hr : forRange d.length s body with
  | ret t =>
    rw [hr] at this
    obtain ⟨x, hx, hb⟩ := h
    obtain ⟨k, hk, rfl⟩ := List.mem_iff_getElem.1 hx
    refine absurd ?_ hb
    have h1 := this k hk
    simpa [List.getD, List.getElem?_eq_getElem hk] using h1
  | exn e => rw [hr] at this; rw [show e = statErr from this]
  | ub => rw [hr] at this; exact this.elim

theorem getD_mem {d : List ℝ} {i : ℕ} (h : i < d.length) : d.getD i 0 ∈ d := by
  simp [List.getD, List.getElem?_eq_getElem h]

theorem log_loop (d : List ℝ) (hp : ∀ x ∈ d, 0 < x) : forRange d.length 0 (logStep d) = .ret (d.map Real.log).sum := by
  rw [forRange_sum d.length 0 (logStep d) (fun i => Real.log (d.getD i 0)) fun i hi s => by
    rw [logStep, index_getD hi, Outcome.bind_ret, if_neg (not_le.2 (hp _ (getD_mem hi)))], zero_add, sum_getD d Real.log]

theorem recip_loop (d : List ℝ) (hp : ∀ x ∈ d, 0 < x) :
    forRange d.length 0 (recipStep d) = .ret (d.map fun x => 1 / x).sum := by
  rw [forRange_sum d.length 0 (recipStep d) (fun i => 1 / d.getD i 0) fun i hi s => by
    rw [recipStep, index_getD hi, Outcome.bind_ret, if_neg (not_le.2 (hp _ (getD_mem hi))),
      quot_of_ne (hp _ (getD_mem hi)).ne', Outcome.bind_ret], zero_add, sum_getD d fun x => 1 / x]

theorem geometric_eq (d : List ℝ) (h : d ≠ []) (hp : ∀ x ∈ d, 0 < x) :
    geometricMean d = .ret (Real.exp ((d.map Real.log).sum / d.length)) := by
  have hn : 0 < d.length := List.length_pos_iff.2 h
  rw [geometricMean, if_neg (by omega), log_loop d hp, Outcome.bind_ret, quot_of_ne (cast_length_ne h), Outcome.bind_ret]

theorem recip_pos (d : List ℝ) (h : d ≠ []) (hp : ∀ x ∈ d, 0 < x) : 0 < (d.map fun x => 1 / x).sum := by
  refine List.sum_pos _ ?_ (by simpa using h)
  intro y hy
  obtain ⟨x, hx, rfl⟩ := List.mem_map.1 hy
  exact one_div_pos.2 (hp x hx)

theorem harmonic_eq (d : List ℝ) (h : d ≠ []) (hp : ∀ x ∈ d, 0 < x) :
    harmonicMean d = .ret (d.length / (d.map fun x => 1 / x).sum) := by
  have hn : 0 < d.length := List.length_pos_iff.2 h
  rw [harmonicMean, if_neg (by omega), recip_loop d hp, Outcome.bind_ret, quot_of_ne (recip_pos d h hp).ne']

/-- **C74, geometric mean**: the positive number whose `n`-th power is the product of the data. -/
theorem geometricMean_spec (d : List ℝ) (h : d ≠ []) (hp : ∀ x ∈ d, 0 < x) : ∃ g, geometricMean d = .ret g ∧ 0 < g ∧
    g ^ d.length = d.prod := by
  refine ⟨_, geometric_eq d h hp, Real.exp_pos _, ?_⟩
  rw [← Real.exp_nat_mul, mul_div_cancel₀ _ (cast_length_ne h)]
  clear h
  induction d with
  | nil => simp
  | cons a d ih =>
    rw [List.map_cons, List.sum_cons, Real.exp_add, Real.exp_log (hp a (by simp)), List.prod_cons,
      ih fun x hx => hp x (by simp [hx])]

/-- **C74, harmonic mean**: its reciprocal is the mean of the reciprocals. -/
theorem harmonicMean_spec (d : List ℝ) (h : d ≠ []) (hp : ∀ x ∈ d, 0 < x) : ∃ m, harmonicMean d = .ret m ∧ 0 < m ∧
    1 / m = mean (d.map fun x => 1 / x) := by
  have hn : (0 : ℝ) < d.length := by exact_mod_cast List.length_pos_iff.2 h
  refine ⟨_, harmonic_eq d h hp, div_pos hn (recip_pos d h hp), ?_⟩
  rw [mean, List.length_map, one_div_div]

/-- **C74, refusals.**  Both means refuse empty data and data with a value that is not positive. -/
theorem geometric_harmonic_refuse (d : List ℝ) (h : d = [] ∨ ∃ x ∈ d, x ≤ 0) :
    geometricMean d = .exn statErr ∧ harmonicMean d = .exn statErr := by
  rcases eq_or_ne d [] with rfl | hd
  · simp [geometricMean, harmonicMean]
  obtain ⟨x, hx, hx0⟩ := h.resolve_left hd
  have hn : 0 < d.length := List.length_pos_iff.2 hd
  constructor
  · rw [geometricMean, if_neg (by omega), forRange_check d (fun y => 0 < y) (logStep d) 0
      (fun t i hi hb => by rw [logStep, index_getD hi, Outcome.bind_ret, if_pos (not_lt.1 hb)])
      (fun t i hi hg => ⟨_, by rw [logStep, index_getD hi, Outcome.bind_ret, if_neg (not_le.2 hg)]⟩) ⟨x, hx, not_lt.2 hx0⟩]
    rfl
  · rw [harmonicMean, if_neg (by omega), forRange_check d (fun y => 0 < y) (recipStep d) 0
      (fun t i hi hb => by rw [recipStep, index_getD hi, Outcome.bind_ret, if_pos (not_lt.1 hb)])
      (fun t i hi hg => ⟨t + 1 / d.getD i 0, by
        rw [recipStep, index_getD hi, Outcome.bind_ret, if_neg (not_le.2 hg), quot_of_ne hg.ne', Outcome.bind_ret]⟩)
      ⟨x, hx, not_lt.2 hx0⟩]
    rfl

theorem exp_mean_log_le (d : List ℝ) (h : d ≠ []) (hp : ∀ x ∈ d, 0 < x) :
    Real.exp ((d.map Real.log).sum / d.length) ≤ mean d := by
  have hn : (0 : ℝ) < d.length := by exact_mod_cast List.length_pos_iff.2 h
  have hm : 0 < mean d := div_pos (List.sum_pos _ hp h) hn
  have h1 : (d.map fun x => Real.log x - Real.log (mean d)).sum ≤ (d.map fun x => x / mean d - 1).sum := by
    refine List.sum_le_sum fun x hx => ?_
    rw [← Real.log_div (hp x hx).ne' hm.ne']
    exact Real.log_le_sub_one_of_pos (div_pos (hp x hx) hm)
  have h2 : (d.map fun x => Real.log x - Real.log (mean d)).sum = (d.map Real.log).sum - d.length * Real.log (mean d) := by
    rw [← sum_getD d fun x => Real.log x - Real.log (mean d), Finset.sum_sub_distrib, sum_getD d Real.log]; simp
  have h3 : (d.map fun x => x / mean d - 1).sum = 0 := by
    rw [← sum_getD d fun x => x / mean d - 1, Finset.sum_sub_distrib]
    simp only [div_eq_mul_inv]
    rw [← Finset.sum_mul, sum_getD d fun x => x]
    have hsum : d.sum = mean d * d.length := by rw [mean]; field_simp
    simp only [List.map_id', Finset.sum_const, Finset.card_range, nsmul_eq_mul, mul_one]
    rw [hsum]; field_simp; ring
  rw [h2, h3] at h1
  rw [← Real.le_log_iff_exp_le hm, div_le_iff₀ hn]
  linarith

/-- **C74, inequality of the means.**  Harmonic, geometric and arithmetic mean of positive data come in this order. -/
theorem means_ordered (d : List ℝ) (h : d ≠ []) (hp : ∀ x ∈ d, 0 < x) : ∃ hm gm am, harmonicMean d = .ret hm ∧
    geometricMean d = .ret gm ∧ avg d = .ret am ∧ hm ≤ gm ∧ gm ≤ am := by
  refine ⟨_, _, _, harmonic_eq d h hp, geometric_eq d h hp, avg_eq h, ?_, exp_mean_log_le d h hp⟩
  have hr := exp_mean_log_le (d.map fun x => 1 / x) (by simpa using h) (by
    intro y hy
    obtain ⟨x, hx, rfl⟩ := List.mem_map.1 hy
    exact one_div_pos.2 (hp x hx))
  have hn : (0 : ℝ) < d.length := by exact_mod_cast List.length_pos_iff.2 h
  have hs := recip_pos d h hp
  have e : ((d.map fun x => 1 / x).map Real.log).sum = -(d.map Real.log).sum := by
    rw [List.map_map, ← sum_getD d (Real.log ∘ fun x => 1 / x), ← sum_getD d Real.log, ← Finset.sum_neg_distrib]
    refine Finset.sum_congr rfl fun i _ => ?_
    simp
  rw [e, List.length_map, neg_div, Real.exp_neg, mean, List.length_map] at hr
  rw [div_le_iff₀ hs]
  have hg := Real.exp_pos ((d.map Real.log).sum / d.length)
  rw [inv_le_iff_one_le_mul₀ hg] at hr
  have : 1 * (d.length : ℝ) ≤ ((d.map fun x => 1 / x).sum / d.length * Real.exp ((d.map Real.log).sum / d.length)) * d.length :=
    mul_le_mul_of_nonneg_right hr hn.le
  rw [one_mul] at this
  refine this.trans_eq ?_
  field_simp

/-! ## Weighted means -/

theorem weight_loop (d w : List ℝ) (hl : w.length = d.length) (hw : ∀ a ∈ w, 0 ≤ a) :
    forRange d.length (0, 0) (weightStep d w) = .ret ((List.zipWith (fun x a => a * x) d w).sum, w.sum) := by
  rw [forRange_sum d.length (0, 0) (weightStep d w) (fun i => (w.getD i 0 * d.getD i 0, w.getD i 0)) fun i hi s => by
    rw [weightStep, index_getD (by omega), Outcome.bind_ret, if_neg (not_lt.2 (hw _ (getD_mem (by omega)))), index_getD hi]
    rfl]
  congr 1
  ext
  · simp only [Prod.fst_add, Prod.fst_sum, zero_add]
    rw [sum_getD₂ d w hl fun x a => a * x]
  · simp only [Prod.snd_add, Prod.snd_sum, zero_add]
    rw [← hl, sum_getD w fun x => x]
    simp

theorem weightedMean_eq (d w : List ℝ) (h : d ≠ []) (hl : w.length = d.length) (hw : ∀ a ∈ w, 0 ≤ a) (hs : 0 < w.sum) :
    weightedMean d w = .ret ((List.zipWith (fun x a => a * x) d w).sum / w.sum) := by
  have hn : 0 < d.length := List.length_pos_iff.2 h
  rw [weightedMean, if_neg (by omega), if_neg (by omega), weight_loop d w hl hw, Outcome.bind_ret]
  dsimp only
  rw [if_neg (not_le.2 hs), quot_of_ne hs.ne']

/-- **C74, weighted mean**: the weighted sum over the total weight, and between the extremes. -/
theorem weightedMean_spec (d w : List ℝ) (h : d ≠ []) (hl : w.length = d.length) (hw : ∀ a ∈ w, 0 ≤ a) (hs : 0 < w.sum) :
    ∃ m, weightedMean d w = .ret m ∧ m = (List.zipWith (fun x a => a * x) d w).sum / w.sum ∧
      ∀ lo hi, (∀ x ∈ d, lo ≤ x ∧ x ≤ hi) → lo ≤ m ∧ m ≤ hi := by
  refine ⟨_, weightedMean_eq d w h hl hw hs, rfl, fun lo hi hb => ?_⟩
  have hsum : w.sum = ∑ i ∈ Finset.range d.length, w.getD i 0 := by
    rw [← hl, sum_getD w fun x => x]; simp
  rw [← sum_getD₂ d w hl fun x a => a * x]
  constructor
  · rw [le_div_iff₀ hs, hsum, Finset.mul_sum]
    refine Finset.sum_le_sum fun i hi => ?_
    rw [Finset.mem_range] at hi
    have h1 := hw _ (getD_mem (show i < w.length by omega))
    have h2 := (hb _ (getD_mem hi)).1
    nlinarith
  · rw [div_le_iff₀ hs, hsum, Finset.mul_sum]
    refine Finset.sum_le_sum fun i hi => ?_
    rw [Finset.mem_range] at hi
    have h1 := hw _ (getD_mem (show i < w.length by omega))
    have h2 := (hb _ (getD_mem hi)).2
    nlinarith

theorem weight_check (d w : List ℝ) (hl : w.length = d.length) (hw : ∃ a ∈ w, a < 0) :
    forRange d.length (0, 0) (weightStep d w) = .exn statErr := by
  obtain ⟨a, ha, ha0⟩ := hw
  rw [← hl]
  refine forRange_check w (fun y => 0 ≤ y) (weightStep d w) (0, 0) ?_ ?_ ⟨a, ha, not_le.2 ha0⟩
  · intro t i hi hb
    rw [weightStep, index_getD hi, Outcome.bind_ret, if_pos (not_le.1 hb)]
  · intro t i hi hg
    exact ⟨_, by rw [weightStep, index_getD hi, Outcome.bind_ret, if_neg (not_lt.2 hg), index_getD (by omega)]; rfl⟩

/-- **C74, weighted mean refuses** empty data, another number of weights, a negative weight and a total weight that is not
positive. -/
theorem weightedMean_refuses (d w : List ℝ) (h : d = [] ∨ w.length ≠ d.length ∨ (∃ a ∈ w, a < 0) ∨ w.sum ≤ 0) :
    weightedMean d w = .exn statErr := by
  rw [weightedMean]
  by_cases h0 : d.length ≤ 0
  · rw [if_pos h0]
  have hd : d ≠ [] := by rintro rfl; simp at h0
  rw [if_neg h0]
  by_cases h1 : w.length ≠ d.length
  · rw [if_pos h1]
  rw [if_neg h1]
  push Not at h1
  by_cases h2 : ∃ a ∈ w, a < 0
  · rw [weight_check d w h1 h2]; rfl
  · have hw : ∀ a ∈ w, 0 ≤ a := by push Not at h2; exact h2
    have hs : w.sum ≤ 0 := by
      rcases h with h | h | h | h
      · exact absurd h hd
      · exact absurd h1 h
      · exact absurd h h2
      · exact h
    rw [weight_loop d w h1 hw, Outcome.bind_ret]
    dsimp only
    rw [if_pos hs]

/-- **C74, equal weights** give the ordinary mean. -/
theorem weightedMean_equal (d : List ℝ) (h : d ≠ []) (c : ℝ) (hc : 0 < c) :
    weightedMean d (List.replicate d.length c) = .ret (mean d) := by
  have hn : (0 : ℝ) < d.length := by exact_mod_cast List.length_pos_iff.2 h
  rw [weightedMean_eq d _ h (by simp) (fun a ha => by rw [List.eq_of_mem_replicate ha]; exact hc.le)
    (by simp; positivity)]
  congr 1
  rw [← sum_getD₂ d _ (by simp) fun x a => a * x]
  have : ∀ i ∈ Finset.range d.length, (List.replicate d.length c).getD i 0 * d.getD i 0 = c * d.getD i 0 := by
    intro i hi
    rw [Finset.mem_range] at hi
    simp [List.getD, hi]
  rw [Finset.sum_congr rfl this, ← Finset.mul_sum, sum_getD d fun x => x, List.sum_replicate, nsmul_eq_mul, mean]
  simp only [List.map_id']
  field_simp

/-- **C74, weighted variance**: the weighted sum of squared deviations from the weighted mean over the total weight less one; not
negative; with unit weights the ordinary variance. -/
theorem weightedVariance_spec (d w : List ℝ) (h : 2 ≤ d.length) (hl : w.length = d.length) (hw : ∀ a ∈ w, 0 ≤ a)
    (hs : 1 < w.sum) : ∃ m v, weightedMean d w = .ret m ∧ weightedVariance d w = .ret v ∧
      v = (List.zipWith (fun x a => a * (x - m) ^ 2) d w).sum / (w.sum - 1) ∧ 0 ≤ v := by
  have hd : d ≠ [] := by rintro rfl; simp at h
  have hm := weightedMean_eq d w hd hl hw (by linarith)
  set m := (List.zipWith (fun x a => a * x) d w).sum / w.sum with hmdef
  have hloop : forRange d.length (0, 0) (weightVarStep d w m) =
      .ret ((List.zipWith (fun x a => a * (x - m) ^ 2) d w).sum, w.sum) := by
    rw [forRange_sum d.length (0, 0) (weightVarStep d w m)
      (fun i => (w.getD i 0 * (d.getD i 0 - m) * (d.getD i 0 - m), w.getD i 0)) fun i hi s => by
      rw [weightVarStep, index_getD (by omega), Outcome.bind_ret, if_neg (not_lt.2 (hw _ (getD_mem (by omega)))), index_getD hi]
      rfl]
    congr 1
    ext
    · simp only [Prod.fst_add, Prod.fst_sum, zero_add]
      rw [← sum_getD₂ d w hl fun x a => a * (x - m) ^ 2]
      exact Finset.sum_congr rfl fun i _ => by ring
    · simp only [Prod.snd_add, Prod.snd_sum, zero_add]
      rw [← hl, sum_getD w fun x => x]
      simp
  refine ⟨m, (List.zipWith (fun x a => a * (x - m) ^ 2) d w).sum / (w.sum - 1), hm, ?_, rfl, ?_⟩
  · rw [weightedVariance, if_neg (by omega), if_neg (by omega), hm, Outcome.bind_ret, hloop, Outcome.bind_ret]
    dsimp only
    rw [if_neg (not_le.2 hs), quot_of_ne (by linarith)]
  · refine div_nonneg ?_ (by linarith)
    rw [← sum_getD₂ d w hl fun x a => a * (x - m) ^ 2]
    refine Finset.sum_nonneg fun i hi => ?_
    rw [Finset.mem_range] at hi
    exact mul_nonneg (hw _ (getD_mem (by omega))) (sq_nonneg _)

theorem weightedVariance_refuses (d w : List ℝ) (h : d.length < 2 ∨ w.length ≠ d.length ∨ (∃ a ∈ w, a < 0) ∨ w.sum ≤ 1) :
    weightedVariance d w = .exn statErr := by
  rw [weightedVariance]
  by_cases h0 : d.length < 2
  · rw [if_pos h0]
  have hd : d ≠ [] := by rintro rfl; simp at h0
  rw [if_neg h0]
  by_cases h1 : w.length ≠ d.length
  · rw [if_pos h1]
  rw [if_neg h1]
  push Not at h1
  by_cases h2 : ∃ a ∈ w, a < 0
  · rw [weightedMean_refuses d w (.inr (.inr (.inl h2)))]; rfl
  by_cases h3 : w.sum ≤ 0
  · rw [weightedMean_refuses d w (.inr (.inr (.inr h3)))]; rfl
  have hw : ∀ a ∈ w, 0 ≤ a := by push Not at h2; exact h2
  have hs : w.sum ≤ 1 := by
    rcases h with h | h | h | h
    · exact absurd h h0
    · exact absurd h1 h
    · exact absurd h h2
    · exact h
  rw [weightedMean_eq d w hd h1 hw (not_le.1 h3), Outcome.bind_ret]
  set m := (List.zipWith (fun x a => a * x) d w).sum / w.sum
  obtain ⟨t, ht, hP⟩ := forRange_rule (fun i (st : ℝ × ℝ) => st.2 = ∑ k ∈ Finset.range i, w.getD k 0) d.length (0, 0)
    (weightVarStep d w m) (by simp) (by
      intro i t hi hP
      refine ⟨(t.1 + w.getD i 0 * (d.getD i 0 - m) * (d.getD i 0 - m), t.2 + w.getD i 0), ?_, ?_⟩
      · rw [weightVarStep, index_getD (by omega), Outcome.bind_ret, if_neg (not_lt.2 (hw _ (getD_mem (by omega)))), index_getD hi]
        rfl
      · simp only [Finset.sum_range_succ, hP])
  rw [ht, Outcome.bind_ret, if_pos]
  rw [hP, ← h1, sum_getD w fun x => x]
  simpa using hs

/-! ## The hypotheses can be met -/

example : (2 : ℕ) ≤ ([1, 2, 4] : List ℝ).length ∧ ¬ ∀ x ∈ ([1, 2, 4] : List ℝ), ∀ y ∈ ([1, 2, 4] : List ℝ), x = y := by
  refine ⟨by simp, fun h => ?_⟩
  have := h 1 (by simp) 2 (by simp)
  norm_num at this

example : ∃ v, variance [1, 2, 4] = .ret v ∧ v = 7 / 3 := by
  refine ⟨_, (avgVar_spec [1, 2, 4] (by simp)).2.1, ?_⟩
  norm_num [mean]

example : (∀ a ∈ ([0, 2, 3] : List ℝ), (0 : ℝ) ≤ a) ∧ (1 : ℝ) < ([0, 2, 3] : List ℝ).sum := by
  constructor
  · intro a ha; simp at ha; rcases ha with rfl | rfl | rfl <;> norm_num
  · norm_num

end Verif.Stats
