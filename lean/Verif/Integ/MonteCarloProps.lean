import Mathlib.Tactic
import Mathlib.Algebra.BigOperators.Fin
import Mathlib.Algebra.Order.BigOperators.Group.Finset
import Mathlib.Algebra.Order.Chebyshev
import Mathlib.Analysis.SpecialFunctions.Pow.Real
import Verif.Integ.MonteCarloModel

/-!
# C146: Monte Carlo integration, for every stream of random numbers
-/

set_option autoImplicit false

namespace Verif.Integ.MC

open Verif Finset

variable {N : ℕ}

/-! ## Statistics -/

/-- The mean of `n` values. -/
noncomputable def mean (n : ℕ) (v : ℕ → ℝ) : ℝ := (∑ k ∈ range n, v k) / n

/-- The mean square distance from the mean. -/
noncomputable def spread (n : ℕ) (v : ℕ → ℝ) : ℝ := mean n fun k => (v k - mean n v) ^ 2

theorem spread_nonneg (n : ℕ) (v : ℕ → ℝ) : 0 ≤ spread n v :=
  div_nonneg (sum_nonneg fun _ _ => sq_nonneg _) (Nat.cast_nonneg n)

theorem spread_eq {n : ℕ} (hn : n ≠ 0) (v : ℕ → ℝ) :
    (∑ k ∈ range n, v k * v k) / n - mean n v * mean n v = spread n v := by
  have hn' : (n : ℝ) ≠ 0 := by exact_mod_cast hn
  have h : ∑ k ∈ range n, (v k - mean n v) ^ 2 =
      ∑ k ∈ range n, v k * v k - 2 * mean n v * ∑ k ∈ range n, v k + n * (mean n v * mean n v) := by
    have : ∀ k, (v k - mean n v) ^ 2 = v k * v k - 2 * mean n v * v k + mean n v * mean n v := fun k => by ring
    simp only [this, sum_add_distrib, sum_sub_distrib, ← mul_sum, sum_const, card_range, nsmul_eq_mul]
    ring
  have hm : ∑ k ∈ range n, v k = n * mean n v := by rw [mean]; field_simp
  unfold spread
  show _ = (∑ k ∈ range n, (v k - mean n v) ^ 2) / n
  rw [h, hm]
  field_simp
  ring

theorem mean_mem {n : ℕ} (hn : n ≠ 0) {v : ℕ → ℝ} {a b : ℝ} (h : ∀ k < n, a ≤ v k ∧ v k ≤ b) :
    a ≤ mean n v ∧ mean n v ≤ b := by
  have hn' : (0 : ℝ) < n := by exact_mod_cast Nat.pos_of_ne_zero hn
  constructor
  · rw [mean, le_div_iff₀ hn']
    calc a * n = ∑ _k ∈ range n, a := by simp; ring
      _ ≤ _ := sum_le_sum fun k hk => (h k (mem_range.1 hk)).1
  · rw [mean, div_le_iff₀ hn']
    calc _ ≤ ∑ _k ∈ range n, b := sum_le_sum fun k hk => (h k (mem_range.1 hk)).2
      _ = b * n := by simp; ring

theorem spread_le {n : ℕ} (hn : n ≠ 0) {v : ℕ → ℝ} {a b : ℝ} (h : ∀ k < n, a ≤ v k ∧ v k ≤ b) :
    spread n v ≤ ((b - a) / 2) ^ 2 := by
  have hn' : (0 : ℝ) < n := by exact_mod_cast Nat.pos_of_ne_zero hn
  have h1 : ∑ k ∈ range n, v k * v k ≤ (a + b) * ∑ k ∈ range n, v k - n * (a * b) := by
    have : (a + b) * ∑ k ∈ range n, v k - n * (a * b) = ∑ k ∈ range n, ((a + b) * v k - a * b) := by
      simp [sum_sub_distrib, mul_sum]
    rw [this]
    refine sum_le_sum fun k hk => ?_
    obtain ⟨h1, h2⟩ := h k (mem_range.1 hk)
    nlinarith
  rw [← spread_eq hn]
  have hm : ∑ k ∈ range n, v k = n * mean n v := by rw [mean]; field_simp
  have h2 : (∑ k ∈ range n, v k * v k) / n ≤ (a + b) * mean n v - a * b := by
    rw [div_le_iff₀ hn']
    rw [hm] at h1
    linarith
  nlinarith [sq_nonneg (mean n v - (a + b) / 2)]

theorem tally_fold (g : ℕ → ℝ) (n : ℕ) : (List.range n).foldl (fun s k => tally s (g k)) (0, 0) =
    (∑ k ∈ range n, g k, ∑ k ∈ range n, g k * g k) := by
  induction n with
  | zero => simp
  | succ n ih => rw [List.range_succ, List.foldl_append, ih, sum_range_succ, sum_range_succ]; rfl

theorem sum_fold (g : ℕ → ℝ) (n : ℕ) : (List.range n).foldl (fun s k => s + g k) 0 = ∑ k ∈ range n, g k := by
  induction n with
  | zero => simp
  | succ n ih => rw [List.range_succ, List.foldl_append, ih, sum_range_succ]; rfl

theorem finish_eq (vol thr target : ℝ) (g : ℕ → ℝ) {n : ℕ} (hn : n ≠ 0) (samples : ℕ) :
    finish vol thr target ((List.range n).foldl (fun s k => tally s (g k)) (0, 0)) n samples =
      .ret ⟨vol * mean n g, vol * Real.sqrt (spread n g / n), spread n g, samples,
        converged thr target (vol * mean n g) (vol * Real.sqrt (spread n g / n))⟩ := by
  have h0 : ¬ spread n g / n < 0 := not_lt.2 (div_nonneg (spread_nonneg n g) (Nat.cast_nonneg n))
  have e := spread_eq hn g
  unfold mean at e
  rw [finish, if_neg hn, tally_fold]
  simp only [usqrt, e, h0, if_false, Outcome.bind_ret]
  rfl

/-- The random numbers are in the unit interval. -/
def Unit01 (u : ℕ → ℝ) : Prop := ∀ k, 0 ≤ u k ∧ u k < 1

/-- A point is in the box. -/
def InBox (lower upper p : Fin N → ℝ) : Prop := ∀ d, lower d ≤ p d ∧ p d ≤ upper d

theorem point_inBox {lower upper : Fin N → ℝ} (hb : ∀ d, lower d ≤ upper d) {u : ℕ → ℝ} (hu : Unit01 u) (k : ℕ) :
    InBox lower upper (point lower upper u k) := fun d => by
  obtain ⟨h1, h2⟩ := hu (k * N + d)
  have := hb d
  unfold point
  constructor <;> nlinarith

theorem reflect_inBox {lower upper p : Fin N → ℝ} (h : InBox lower upper p) : InBox lower upper (reflect lower upper p) :=
  fun d => by
    obtain ⟨h1, h2⟩ := h d
    unfold reflect
    constructor <;> linarith

/-- The value a sample contributes: `f` at a random point, or its average over the point and the reflected point. -/
noncomputable def sample (f : (Fin N → ℝ) → ℝ) (lower upper : Fin N → ℝ) (u : ℕ → ℝ) (antithetic : Bool) (k : ℕ) : ℝ :=
  if antithetic then
    (f (fun d => lower d + u (k * N + d) * (upper d - lower d)) +
      f (fun d => upper d - u (k * N + d) * (upper d - lower d))) / 2
  else f (fun d => lower d + u (k * N + d) * (upper d - lower d))

/-- The number of samples: pairs count once. -/
def count (numSamples : ℕ) (antithetic : Bool) : ℕ := if antithetic then numSamples / 2 else numSamples

theorem pairValue_eq (f : (Fin N → ℝ) → ℝ) (lower upper : Fin N → ℝ) (u : ℕ → ℝ) (k : ℕ) :
    pairValue f lower upper u k = sample f lower upper u true k := by
  have : reflect lower upper (point lower upper u k) = fun d => upper d - u (k * N + d) * (upper d - lower d) := by
    funext d; simp only [reflect, point]; ring
  rw [pairValue, this, sample, if_pos rfl]
  show (0.5 : ℝ) * (f (fun d => lower d + u (k * N + d) * (upper d - lower d)) + _) = _
  generalize f (fun d => lower d + u (k * N + d) * (upper d - lower d)) = A
  generalize f (fun d => upper d - u (k * N + d) * (upper d - lower d)) = B
  norm_num; ring

/-- **C146.**  The value is the volume times the mean of the samples, the error estimate the volume times the
standard error of the mean, the variance the mean square distance from the mean; `converged` compares the two. -/
theorem integrate_spec (f : (Fin N → ℝ) → ℝ) (lower upper : Fin N → ℝ) (u : ℕ → ℝ) (n : ℕ) (thr target : ℝ) (anti : Bool)
    (hv : ∏ d, (upper d - lower d) ≠ 0) (hn : count n anti ≠ 0) :
    ∃ r, integrate f lower upper u n thr target anti = .ret r ∧
      r.value = (∏ d, (upper d - lower d)) * mean (count n anti) (sample f lower upper u anti) ∧
      r.variance = spread (count n anti) (sample f lower upper u anti) ∧
      r.error = (∏ d, (upper d - lower d)) *
        Real.sqrt (spread (count n anti) (sample f lower upper u anti) / count n anti) ∧
      r.samples = (if anti then n / 2 * 2 else n) ∧
      (r.converged = true ↔ |r.value| < thr ∨ r.error / |r.value| < target) := by
  rw [integrate, if_neg (show volume lower upper ≠ 0 from hv)]
  cases anti with
  | true =>
    simp only [if_true, count] at hn ⊢
    have hg : (fun (s : ℝ × ℝ) k => tally s (pairValue f lower upper u k)) =
        fun s k => tally s (sample f lower upper u true k) := by
      funext s k; rw [pairValue_eq]
    rw [hg, finish_eq _ _ _ _ hn]
    exact ⟨_, rfl, rfl, rfl, rfl, rfl, by simp [converged]⟩
  | false =>
    simp only [Bool.false_eq_true, if_false, count] at hn ⊢
    have hg : (fun (s : ℝ × ℝ) k => tally s (f (point lower upper u k))) =
        fun s k => tally s (sample f lower upper u false k) := by
      funext s k; rfl
    rw [hg, finish_eq _ _ _ _ hn]
    exact ⟨_, rfl, rfl, rfl, rfl, rfl, by simp [converged]⟩

/-- **C146.**  A box of volume zero gives zero; otherwise without samples the mean is a quotient by zero, and with
`antithetic` one sample is none. -/
theorem integrate_reject (f : (Fin N → ℝ) → ℝ) (lower upper : Fin N → ℝ) (u : ℕ → ℝ) (thr target : ℝ) (anti : Bool)
    (n : ℕ) :
    (∏ d, (upper d - lower d) = 0 → integrate f lower upper u n thr target anti = .ret ⟨0, 0, 0, 0, true⟩) ∧
    (∏ d, (upper d - lower d) ≠ 0 →
      integrate f lower upper u 0 thr target anti = .ub ∧ integrate f lower upper u 1 thr target true = .ub) := by
  refine ⟨fun h => by rw [integrate, if_pos (show volume lower upper = 0 from h)]; rfl, fun h => ⟨?_, ?_⟩⟩
  · rw [integrate, if_neg (show volume lower upper ≠ 0 from h)]; cases anti <;> simp [finish]
  · rw [integrate, if_neg (show volume lower upper ≠ 0 from h)]; simp [finish]

theorem sample_mem {f : (Fin N → ℝ) → ℝ} {lower upper : Fin N → ℝ} (hb : ∀ d, lower d ≤ upper d) {u : ℕ → ℝ} (hu : Unit01 u)
    {a b : ℝ} (hf : ∀ p, InBox lower upper p → a ≤ f p ∧ f p ≤ b) (anti : Bool) (k : ℕ) :
    a ≤ sample f lower upper u anti k ∧ sample f lower upper u anti k ≤ b := by
  have h1 := hf _ (point_inBox hb hu k)
  cases anti with
  | false => exact h1
  | true =>
    have h2 := hf _ (reflect_inBox (point_inBox hb hu k))
    rw [← pairValue_eq, pairValue]
    constructor <;> norm_num <;> linarith [h1.1, h1.2, h2.1, h2.2]

/-- **C146.**  Whatever the random numbers, the value is between the volume times any lower and upper bounds of the
integrand, and the error estimate is at most half their distance, times the volume, over the root of the number of
samples. -/
theorem integrate_bounds (f : (Fin N → ℝ) → ℝ) (lower upper : Fin N → ℝ) (hb : ∀ d, lower d < upper d) (u : ℕ → ℝ)
    (hu : Unit01 u) (n : ℕ) (thr target : ℝ) (anti : Bool) (hn : count n anti ≠ 0) (a b : ℝ)
    (hf : ∀ p, InBox lower upper p → a ≤ f p ∧ f p ≤ b) :
    ∃ r, integrate f lower upper u n thr target anti = .ret r ∧
      (∏ d, (upper d - lower d)) * a ≤ r.value ∧ r.value ≤ (∏ d, (upper d - lower d)) * b ∧
      0 ≤ r.error ∧ r.error ≤ (∏ d, (upper d - lower d)) * ((b - a) / 2) / Real.sqrt (count n anti) := by
  have hv : 0 < ∏ d, (upper d - lower d) := prod_pos fun d _ => by linarith [hb d]
  obtain ⟨r, h1, h2, h3, h4, -⟩ := integrate_spec f lower upper u n thr target anti hv.ne' hn
  have hs := fun k (_ : k < count n anti) => sample_mem (fun d => (hb d).le) hu hf anti k
  have hm := mean_mem hn hs
  have hsp := spread_le hn hs
  have hab : a ≤ b := (hm.1).trans hm.2
  refine ⟨r, h1, ?_, ?_, ?_, ?_⟩
  · rw [h2]; exact mul_le_mul_of_nonneg_left hm.1 hv.le
  · rw [h2]; exact mul_le_mul_of_nonneg_left hm.2 hv.le
  · rw [h4]; positivity
  · rw [h4, mul_div_assoc]
    refine mul_le_mul_of_nonneg_left ?_ hv.le
    rw [Real.sqrt_div' _ (Nat.cast_nonneg _)]
    refine div_le_div_of_nonneg_right ?_ (Real.sqrt_nonneg _)
    exact Real.sqrt_le_iff.2 ⟨by linarith, hsp⟩

/-- **C146.**  With `antithetic` an affine integrand is integrated exactly, with error estimate zero: the value is
the volume times the integrand at the centre. -/
theorem antithetic_affine (c : ℝ) (g : Fin N → ℝ) (lower upper : Fin N → ℝ) (hv : ∏ d, (upper d - lower d) ≠ 0) (u : ℕ → ℝ)
    (n : ℕ) (hn : 2 ≤ n) (thr target : ℝ) (ht : 0 < target) :
    ∃ r, integrate (fun p => c + ∑ d, g d * p d) lower upper u n thr target true = .ret r ∧
      r.value = (∏ d, (upper d - lower d)) * (c + ∑ d, g d * ((lower d + upper d) / 2)) ∧ r.error = 0 ∧
      r.converged = true := by
  have hc : count n true ≠ 0 := by simp only [count, if_true]; omega
  obtain ⟨r, h1, h2, h3, h4, h5, h6⟩ := integrate_spec (fun p => c + ∑ d, g d * p d) lower upper u n thr target true hv hc
  have hs : ∀ k, sample (fun p => c + ∑ d, g d * p d) lower upper u true k = c + ∑ d, g d * ((lower d + upper d) / 2) := by
    intro k
    simp only [sample, if_true]
    have : (∑ d, g d * (lower d + u (k * N + d) * (upper d - lower d))) +
        ∑ d, g d * (upper d - u (k * N + d) * (upper d - lower d)) = 2 * ∑ d, g d * ((lower d + upper d) / 2) := by
      rw [← sum_add_distrib, mul_sum]
      refine sum_congr rfl fun d _ => ?_
      ring
    linarith
  have hm : mean (count n true) (sample (fun p => c + ∑ d, g d * p d) lower upper u true) =
      c + ∑ d, g d * ((lower d + upper d) / 2) := by
    have := mean_mem hc (v := sample (fun p => c + ∑ d, g d * p d) lower upper u true)
      (fun k _ => ⟨(hs k).ge, (hs k).le⟩)
    exact le_antisymm this.2 this.1
  have hz : spread (count n true) (sample (fun p => c + ∑ d, g d * p d) lower upper u true) = 0 := by
    unfold spread
    simp only [hs, hm, sub_self]
    simp [mean]
  have he : r.error = 0 := by rw [h4, hz]; simp
  exact ⟨r, h1, by rw [h2, hm], he, h6.2 (Or.inr (by rw [he, zero_div]; exact ht))⟩

/-- **C146** (finding).  With an odd number of reversed bounds the error estimate is not positive, and the result
is always reported as converged. -/
theorem reversed_converges (f : (Fin N → ℝ) → ℝ) (lower upper : Fin N → ℝ) (u : ℕ → ℝ) (n : ℕ) (thr target : ℝ) (anti : Bool)
    (hv : ∏ d, (upper d - lower d) < 0) (hn : count n anti ≠ 0) (ht : 0 < target) :
    ∃ r, integrate f lower upper u n thr target anti = .ret r ∧ r.error ≤ 0 ∧ r.converged = true := by
  obtain ⟨r, h1, h2, h3, h4, h5, h6⟩ := integrate_spec f lower upper u n thr target anti hv.ne hn
  have he : r.error ≤ 0 := by rw [h4]; exact mul_nonpos_of_nonpos_of_nonneg hv.le (Real.sqrt_nonneg _)
  exact ⟨r, h1, he, h6.2 (Or.inr (lt_of_le_of_lt (div_nonpos_of_nonpos_of_nonneg he (abs_nonneg _)) ht))⟩

/-! ## Strata -/

/-- The lowest `n` digits of `s` in base `m`. -/
def digs (m : ℕ) : ℕ → ℕ → List ℕ
  | 0, _ => []
  | n + 1, s => s % m :: digs m n (s / m)

theorem digs_zero (m : ℕ) : ∀ n, digs m n 0 = List.replicate n 0
  | 0 => rfl
  | n + 1 => by simp [digs, digs_zero m n, List.replicate_succ]

theorem bump_digs {m : ℕ} (hm : m ≠ 0) : ∀ n s, bump m (digs m n s) = digs m n (s + 1)
  | 0, _ => rfl
  | n + 1, s => by
    have hp : 0 < m := Nat.pos_of_ne_zero hm
    have hlt := Nat.mod_lt s hp
    have hs := Nat.div_add_mod s m
    simp only [digs, bump]
    by_cases h : s % m + 1 < m
    · rw [if_pos h]
      have e : s + 1 = (s % m + 1) + m * (s / m) := by omega
      rw [e, Nat.add_mul_mod_self_left, Nat.mod_eq_of_lt h, Nat.add_mul_div_left _ _ hp, Nat.div_eq_of_lt h, Nat.zero_add]
    · rw [if_neg h, bump_digs hm]
      have e : s + 1 = 0 + m * (s / m + 1) := by rw [Nat.mul_add]; omega
      rw [e, Nat.add_mul_mod_self_left, Nat.add_mul_div_left _ _ hp]
      simp

theorem getD_digs (m : ℕ) : ∀ n s d, d < n → (digs m n s).getD d 0 = s / m ^ d % m
  | 0, _, _, h => by omega
  | n + 1, s, 0, _ => by simp [digs]
  | n + 1, s, d + 1, h => by
    simp only [digs, List.getD_cons_succ]
    rw [getD_digs m n _ d (by omega), Nat.div_div_eq_div_mul, pow_succ']

/-- The mean over the stratum with number `s`. -/
noncomputable def strMean (f : (Fin N → ℝ) → ℝ) (lower upper : Fin N → ℝ) (u : ℕ → ℝ) (m per s : ℕ) : ℝ :=
  stratumMean f lower upper u m per (digs m N s) (s * per)

theorem strata_fold (f : (Fin N → ℝ) → ℝ) (lower upper : Fin N → ℝ) (u : ℕ → ℝ) {m : ℕ} (hm : m ≠ 0) (per t : ℕ) :
    (List.range t).foldl (fun s _ => stratum f lower upper u m per s) ⟨(0, 0), 0, List.replicate N 0⟩ =
      ⟨(∑ s ∈ range t, strMean f lower upper u m per s,
        ∑ s ∈ range t, strMean f lower upper u m per s * strMean f lower upper u m per s), t * per, digs m N t⟩ := by
  induction t with
  | zero => simp [digs_zero]
  | succ t ih =>
    rw [List.range_succ, List.foldl_append, ih, sum_range_succ, sum_range_succ]
    simp only [List.foldl_cons, List.foldl_nil, stratum, bump_digs hm, tally, strMean]
    congr 1
    ring

/-- A point is in the stratum with the coordinates `c`, when each side of the box is cut into `m` equal parts. -/
def InStratum (lower upper : Fin N → ℝ) (m : ℕ) (c : Fin N → Fin m) (p : Fin N → ℝ) : Prop :=
  ∀ d, lower d + (c d : ℕ) * ((upper d - lower d) / m) ≤ p d ∧ p d ≤ lower d + ((c d : ℕ) + 1) * ((upper d - lower d) / m)

/-- The coordinates of the stratum with number `s`. -/
noncomputable def coord (m : ℕ) (s : Fin (m ^ N)) : Fin N → Fin m := finFunctionFinEquiv.symm s

theorem coord_val (m : ℕ) (s : Fin (m ^ N)) (d : Fin N) : (coord m s d : ℕ) = (digs m N s).getD d 0 := by
  rw [getD_digs m N s d d.2]
  rfl

theorem stratumPoint_mem {lower upper : Fin N → ℝ} (hb : ∀ d, lower d ≤ upper d) {u : ℕ → ℝ} (hu : Unit01 u) (m : ℕ)
    (s : Fin (m ^ N)) (k : ℕ) : InStratum lower upper m (coord m s) (stratumPoint lower upper u m (digs m N s) k) := by
  intro d
  rw [coord_val]
  obtain ⟨h1, h2⟩ := hu (k * N + d)
  have h3 : 0 ≤ (upper d - lower d) / m := div_nonneg (by linarith [hb d]) (Nat.cast_nonneg m)
  simp only [stratumPoint, delta]
  constructor <;> nlinarith

/-- **C146.**  Every stratum is visited exactly once.  So, whatever the random numbers, the value is between the
lower and the upper sum of the integrand for the grid of strata: the sums of the volume of a stratum times a lower
or an upper bound of the integrand on it. -/
theorem stratified_darboux (f : (Fin N → ℝ) → ℝ) (lower upper : Fin N → ℝ) (hb : ∀ d, lower d < upper d) (u : ℕ → ℝ)
    (hu : Unit01 u) (m per : ℕ) (hm : m ≠ 0) (hp : per ≠ 0) (thr strict : ℝ) (a b : (Fin N → Fin m) → ℝ)
    (hf : ∀ c p, InStratum lower upper m c p → a c ≤ f p ∧ f p ≤ b c) :
    ∃ r, stratified f lower upper u m per thr strict = .ret r ∧
      ∑ c, a c * ∏ d, ((upper d - lower d) / m) ≤ r.value ∧ r.value ≤ ∑ c, b c * ∏ d, ((upper d - lower d) / m) ∧
      0 ≤ r.error ∧ r.samples = m ^ N * per ∧
      (r.converged = true ↔ |r.value| < thr ∨ r.error / |r.value| < strict) := by
  have hv : 0 < ∏ d, (upper d - lower d) := prod_pos fun d _ => by linarith [hb d]
  have ht : m ^ N ≠ 0 := pow_ne_zero _ hm
  have ht' : (0 : ℝ) < ((m ^ N : ℕ) : ℝ) := by exact_mod_cast Nat.pos_of_ne_zero ht
  have hsp := spread_eq ht (strMean f lower upper u m per)
  have hnn := spread_nonneg (m ^ N) (strMean f lower upper u m per)
  unfold mean at hsp
  have h0 : ¬ spread (m ^ N) (strMean f lower upper u m per) / ((m ^ N : ℕ) : ℝ) < 0 :=
    not_lt.2 (div_nonneg hnn ht'.le)
  rw [stratified, if_neg hm, if_neg (show volume lower upper ≠ 0 from hv.ne'), if_neg hp]
  simp only [strata_fold f lower upper u hm, hsp, usqrt, h0, if_false, Outcome.bind_ret]
  refine ⟨_, rfl, ?_, ?_, ?_, rfl, by simp [converged]⟩
  · have e : volume lower upper * ((∑ s ∈ range (m ^ N), strMean f lower upper u m per s) / ((m ^ N : ℕ) : ℝ)) =
        ∑ s : Fin (m ^ N), strMean f lower upper u m per s * ∏ d, ((upper d - lower d) / m) := by
      rw [← Fin.sum_univ_eq_sum_range, ← sum_mul, prod_div_distrib, prod_const, card_univ, Fintype.card_fin, volume]
      push_cast; ring
    show _ ≤ volume lower upper * _
    rw [e, ← (finFunctionFinEquiv (m := m) (n := N)).symm.sum_comp]
    refine sum_le_sum fun s _ => mul_le_mul_of_nonneg_right ?_ (prod_nonneg fun d _ => div_nonneg (by linarith [hb d]) (Nat.cast_nonneg m))
    have := mean_mem hp (v := fun i => f (stratumPoint lower upper u m (digs m N s) (s * per + i)))
      (fun k _ => hf (coord m s) _ (stratumPoint_mem (fun d => (hb d).le) hu m s _))
    rw [strMean, stratumMean, sum_fold]
    exact this.1
  · have e : volume lower upper * ((∑ s ∈ range (m ^ N), strMean f lower upper u m per s) / ((m ^ N : ℕ) : ℝ)) =
        ∑ s : Fin (m ^ N), strMean f lower upper u m per s * ∏ d, ((upper d - lower d) / m) := by
      rw [← Fin.sum_univ_eq_sum_range, ← sum_mul, prod_div_distrib, prod_const, card_univ, Fintype.card_fin, volume]
      push_cast; ring
    show volume lower upper * _ ≤ _
    rw [e, ← (finFunctionFinEquiv (m := m) (n := N)).symm.sum_comp]
    refine sum_le_sum fun s _ => mul_le_mul_of_nonneg_right ?_ (prod_nonneg fun d _ => div_nonneg (by linarith [hb d]) (Nat.cast_nonneg m))
    have := mean_mem hp (v := fun i => f (stratumPoint lower upper u m (digs m N s) (s * per + i)))
      (fun k _ => hf (coord m s) _ (stratumPoint_mem (fun d => (hb d).le) hu m s _))
    rw [strMean, stratumMean, sum_fold]
    exact this.2
  · exact mul_nonneg hv.le (Real.sqrt_nonneg _)

/-- **C146.**  A step function, constant on every stratum, is integrated exactly whatever the random numbers. -/
theorem stratified_step (f : (Fin N → ℝ) → ℝ) (lower upper : Fin N → ℝ) (hb : ∀ d, lower d < upper d) (u : ℕ → ℝ)
    (hu : Unit01 u) (m per : ℕ) (hm : m ≠ 0) (hp : per ≠ 0) (thr strict : ℝ) (a : (Fin N → Fin m) → ℝ)
    (hf : ∀ c p, InStratum lower upper m c p → f p = a c) :
    ∃ r, stratified f lower upper u m per thr strict = .ret r ∧ r.value = ∑ c, a c * ∏ d, ((upper d - lower d) / m) := by
  obtain ⟨r, h1, h2, h3, -⟩ := stratified_darboux f lower upper hb u hu m per hm hp thr strict a a
    (fun c p h => ⟨(hf c p h).ge, (hf c p h).le⟩)
  exact ⟨r, h1, le_antisymm h3 h2⟩

/-- **C146.**  A box of volume zero gives zero; without strata, or without samples in a stratum, there is a
quotient by zero. -/
theorem stratified_reject (f : (Fin N → ℝ) → ℝ) (lower upper : Fin N → ℝ) (u : ℕ → ℝ) (m per : ℕ) (thr strict : ℝ) :
    stratified f lower upper u 0 per thr strict = .ub ∧
    (m ≠ 0 → ∏ d, (upper d - lower d) = 0 → stratified f lower upper u m per thr strict = .ret ⟨0, 0, 0, 0, true⟩) ∧
    (∏ d, (upper d - lower d) ≠ 0 → stratified f lower upper u m 0 thr strict = .ub) := by
  refine ⟨by simp [stratified], fun h h' => ?_, fun h => ?_⟩
  · rw [stratified, if_neg h, if_pos (show volume lower upper = 0 from h')]; rfl
  · rw [stratified]
    by_cases hm : m = 0
    · rw [if_pos hm]
    · rw [if_neg hm, if_neg (show volume lower upper ≠ 0 from h), if_pos rfl]

/-! ## Hit or miss -/

/-- The number of random points in the region. -/
noncomputable def hits (inside : (Fin N → ℝ) → Bool) (lower upper : Fin N → ℝ) (u : ℕ → ℝ) (n : ℕ) : ℕ :=
  #{k ∈ range n | inside (fun d => lower d + u (k * N + d) * (upper d - lower d)) = true}

theorem hits_fold (inside : (Fin N → ℝ) → Bool) (lower upper : Fin N → ℝ) (u : ℕ → ℝ) (n : ℕ) :
    (List.range n).foldl (fun h k => if inside (point lower upper u k) then h + 1 else h) 0 = hits inside lower upper u n := by
  unfold hits
  induction n with
  | zero => simp
  | succ n ih =>
    rw [List.range_succ, List.foldl_append, ih, range_add_one, filter_insert]
    simp only [List.foldl_cons, List.foldl_nil]
    have e : point lower upper u n = fun d => lower d + u (n * N + d) * (upper d - lower d) := rfl
    rw [e]
    split_ifs with h
    · rw [card_insert_of_notMem (by simp)]
    · rfl

theorem hits_le (inside : (Fin N → ℝ) → Bool) (lower upper : Fin N → ℝ) (u : ℕ → ℝ) (n : ℕ) :
    hits inside lower upper u n ≤ n := (card_filter_le _ _).trans_eq (card_range n)

/-- **C146.**  `estimateVolume` returns the share of the points in the region times the volume of the box, and the
binomial standard error.  In a proper box the value is between zero and the volume of the box and the error
estimate at most the volume over twice the root of the number of samples. -/
theorem hitOrMiss_spec (inside : (Fin N → ℝ) → Bool) (lower upper : Fin N → ℝ) (u : ℕ → ℝ) (n : ℕ) (hn : n ≠ 0) :
    ∃ r, hitOrMiss inside lower upper u n = .ret r ∧
      r.value = (∏ d, (upper d - lower d)) * ((hits inside lower upper u n : ℝ) / n) ∧
      r.error = (∏ d, (upper d - lower d)) *
        Real.sqrt ((hits inside lower upper u n : ℝ) / n * (1 - (hits inside lower upper u n : ℝ) / n) / n) ∧
      r.variance = (hits inside lower upper u n : ℝ) / n * (1 - (hits inside lower upper u n : ℝ) / n) ∧
      r.samples = n ∧ r.converged = true ∧
      ((∀ d, lower d ≤ upper d) → 0 ≤ r.value ∧ r.value ≤ ∏ d, (upper d - lower d) ∧
        0 ≤ r.error ∧ r.error ≤ (∏ d, (upper d - lower d)) / (2 * Real.sqrt n)) := by
  have hn' : (0 : ℝ) < n := by exact_mod_cast Nat.pos_of_ne_zero hn
  set p : ℝ := (hits inside lower upper u n : ℝ) / n with hp
  have p0 : 0 ≤ p := by positivity
  have p1 : p ≤ 1 := (div_le_one hn').2 (by exact_mod_cast hits_le inside lower upper u n)
  have h0 : ¬ p * (1 - p) / n < 0 := not_lt.2 (div_nonneg (mul_nonneg p0 (by linarith)) hn'.le)
  rw [hitOrMiss, if_neg hn, hits_fold]
  simp only [usqrt, ← hp, h0, if_false, Outcome.bind_ret]
  refine ⟨_, rfl, rfl, rfl, rfl, rfl, rfl, fun hb => ?_⟩
  have hv : 0 ≤ ∏ d, (upper d - lower d) := prod_nonneg fun d _ => by linarith [hb d]
  refine ⟨mul_nonneg hv p0, mul_le_of_le_one_right hv p1, mul_nonneg hv (Real.sqrt_nonneg _), ?_⟩
  show volume lower upper * Real.sqrt (p * (1 - p) / n) ≤ volume lower upper / (2 * Real.sqrt n)
  rw [div_eq_mul_inv (volume lower upper)]
  refine mul_le_mul_of_nonneg_left ?_ hv
  rw [Real.sqrt_div' _ hn'.le, mul_inv, ← div_eq_mul_inv]
  refine div_le_div_of_nonneg_right ?_ (Real.sqrt_nonneg _)
  refine Real.sqrt_le_iff.2 ⟨by norm_num, ?_⟩
  nlinarith [sq_nonneg (p - 1 / 2)]

/-- **C146.**  With the same random numbers the estimates for a region and for the rest of the box add up to the
volume of the box; without samples there is a quotient by zero. -/
theorem hitOrMiss_complement (inside : (Fin N → ℝ) → Bool) (lower upper : Fin N → ℝ) (u : ℕ → ℝ) :
    hitOrMiss inside lower upper u 0 = .ub ∧
    ∀ n ≠ 0, ∃ r s, hitOrMiss inside lower upper u n = .ret r ∧ hitOrMiss (fun p => !inside p) lower upper u n = .ret s ∧
      r.value + s.value = ∏ d, (upper d - lower d) := by
  refine ⟨by simp [hitOrMiss], fun n hn => ?_⟩
  obtain ⟨r, h1, h2, -⟩ := hitOrMiss_spec inside lower upper u n hn
  obtain ⟨s, g1, g2, -⟩ := hitOrMiss_spec (fun p => !inside p) lower upper u n hn
  refine ⟨r, s, h1, g1, ?_⟩
  have hn' : (n : ℝ) ≠ 0 := by exact_mod_cast hn
  have hs : hits inside lower upper u n + hits (fun p => !inside p) lower upper u n = n := by
    unfold hits
    simp only [Bool.not_eq_true', ← Bool.not_eq_true]
    rw [card_filter_add_card_filter_not, card_range]
  have hs' : (hits inside lower upper u n : ℝ) + hits (fun p => !inside p) lower upper u n = n := by exact_mod_cast hs
  rw [h2, g2, ← mul_add, ← add_div, hs', div_self hn', mul_one]

/-- **C146.**  `EstimatePi` and `EstimateUnitBallVolume` are between zero and the volume of the box around the ball;
in two dimensions they are the same. -/
theorem ball_bounds (u : ℕ → ℝ) (n : ℕ) (hn : n ≠ 0) :
    (∃ r, estimatePi u n = .ret r ∧ 0 ≤ r.value ∧ r.value ≤ 4) ∧
    (∀ N, ∃ r, unitBall N u n = .ret r ∧ 0 ≤ r.value ∧ r.value ≤ 2 ^ N) ∧ unitBall 2 u n = estimatePi u n := by
  have hball : ∀ N, ∃ r, unitBall N u n = .ret r ∧ 0 ≤ r.value ∧ r.value ≤ 2 ^ N := by
    intro N
    classical
    obtain ⟨r, h1, -, -, -, -, -, h⟩ := hitOrMiss_spec (N := N) (fun p => decide (∑ d, p d * p d ≤ 1)) (fun _ => -1) (fun _ => 1) u n hn
    obtain ⟨h2, h3, -⟩ := h (fun _ => by norm_num)
    refine ⟨r, ?_, h2, ?_⟩
    · rw [← h1, unitBall]
    · refine h3.trans ?_
      simp only [prod_const, card_univ, Fintype.card_fin]
      norm_num
  have heq : unitBall 2 u n = estimatePi u n := by
    simp only [unitBall, estimatePi, Fin.sum_univ_two]
  refine ⟨?_, hball, heq⟩
  obtain ⟨r, h1, h2, h3⟩ := hball 2
  rw [heq] at h1
  exact ⟨r, h1, h2, by norm_num at h3; exact h3⟩

/-! ## The hypotheses can be met -/

example : Unit01 fun k => if k % 2 = 0 then 0 else 1 / 3 := fun k => by
  simp only; split_ifs <;> norm_num

example : ∃ r, integrate (N := 2) (fun p => 1 + ∑ d, 2 * p d) (fun _ => 0) (fun _ => 3) (fun _ => 1 / 7) 10 0 0.1 true = .ret r ∧
    r.value = 63 ∧ r.error = 0 ∧ r.converged = true := by
  obtain ⟨r, h1, h2, h3, h4⟩ := antithetic_affine (N := 2) 1 (fun _ => 2) (fun _ => 0) (fun _ => 3) (by simp) (fun _ => 1 / 7)
    10 (by norm_num) 0 0.1 (by norm_num)
  refine ⟨r, h1, ?_, h3, h4⟩
  rw [h2]; norm_num [Fin.sum_univ_two, Fin.prod_univ_two]

example : ∃ r, integrate (N := 1) (fun p => p 0) (fun _ => 1) (fun _ => 0) (fun k => if k = 0 then 0 else 1 / 2) 2 0 0.001 false = .ret r ∧
    r.error ≤ 0 ∧ r.converged = true :=
  reversed_converges _ _ _ _ _ _ _ _ (by simp) (by simp [count]) (by norm_num)

example (u : ℕ → ℝ) (hu : Unit01 u) : ∃ r, stratified (N := 1) (fun p => p 0) (fun _ => 0) (fun _ => 1) u 2 1 0 0.1 = .ret r ∧
    1 / 4 ≤ r.value ∧ r.value ≤ 3 / 4 := by
  obtain ⟨r, h1, h2, h3, -⟩ := stratified_darboux (N := 1) (fun p => p 0) (fun _ => 0) (fun _ => 1) (fun _ => by norm_num) u hu
    2 1 (by norm_num) (by norm_num) 0 0.1 (fun c => (c 0 : ℕ) / 2) (fun c => ((c 0 : ℕ) + 1) / 2) (fun c p h => by
      have := h 0; norm_num at this; constructor <;> linarith [this.1, this.2])
  refine ⟨r, h1, ?_, ?_⟩
  · refine le_trans (le_of_eq ?_) h2
    rw [← (Equiv.funUnique (Fin 1) (Fin 2)).symm.sum_comp]
    simp [Fin.sum_univ_two]; norm_num
  · refine le_trans h3 (le_of_eq ?_)
    rw [← (Equiv.funUnique (Fin 1) (Fin 2)).symm.sum_comp]
    simp [Fin.sum_univ_two]; norm_num

end Verif.Integ.MC
