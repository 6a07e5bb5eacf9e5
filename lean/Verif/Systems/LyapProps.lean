import Mathlib.Tactic
import Mathlib.LinearAlgebra.Matrix.Block
import Mathlib.LinearAlgebra.Matrix.Determinant.Basic
import Verif.Systems.MapsProps

/-!
# Lyapunov exponents of discrete maps
-/

set_option autoImplicit false

namespace Verif.Systems.Lyap
variable {N : ℕ}

/-! ## Gram-Schmidt -/

theorem dot_comm (v w : Fin N → ℝ) : dot v w = dot w v := by
  rw [dot, dot]; exact Finset.sum_congr rfl (fun i _ => mul_comm _ _)

theorem dot_sub_smul (v w u : Fin N → ℝ) (c : ℝ) : dot (fun i => v i - c * w i) u = dot v u - c * dot w u := by
  rw [dot, dot, dot, Finset.mul_sum, ← Finset.sum_sub_distrib]
  exact Finset.sum_congr rfl (fun i _ => by ring)

theorem dot_div (v u : Fin N → ℝ) (c : ℝ) : dot (fun i => v i / c) u = dot v u / c := by
  rw [dot, dot, Finset.sum_div]
  exact Finset.sum_congr rfl (fun i _ => by ring)

theorem dot_self_nonneg (v : Fin N → ℝ) : 0 ≤ dot v v := Finset.sum_nonneg (fun i _ => mul_self_nonneg _)

/-- The first `m` columns are orthonormal. -/
def Ortho (Q : Cols N) (m : ℕ) : Prop := ∀ j < m, ∀ k < m, dot (Q j) (Q k) = if j = k then 1 else 0

theorem orth_spec {Q : Cols N} (v : Fin N → ℝ) : ∀ {k : ℕ}, Ortho Q k → (∀ l < k, dot (orth Q v k) (Q l) = 0) ∧
    ∃ c : ℕ → ℝ, ∀ i, v i = orth Q v k i + ∑ l ∈ Finset.range k, c l * Q l i
  | 0, _ => ⟨by simp, fun _ => 0, by simp [orth]⟩
  | k + 1, h => by
    obtain ⟨h1, c, h2⟩ := orth_spec v (Q := Q) (k := k) (fun j hj l hl => h j (by omega) l (by omega))
    refine ⟨fun l hl => ?_, Function.update c k (dot (orth Q v k) (Q k)), fun i => ?_⟩
    · rw [orth, dot_sub_smul, h k (by omega) l hl]
      rcases Nat.lt_or_ge l k with hlk | hlk
      · rw [h1 l hlk, if_neg (by omega)]; ring
      · have : l = k := by omega
        subst this
        rw [if_pos rfl]; ring
    · rw [Finset.sum_range_succ, Function.update_self, orth, h2 i]
      have : ∑ l ∈ Finset.range k, Function.update c k (dot (orth Q v k) (Q k)) l * Q l i = ∑ l ∈ Finset.range k, c l * Q l i :=
        Finset.sum_congr rfl (fun l hl => by rw [Function.update_of_ne (by rw [Finset.mem_range] at hl; omega)])
      rw [this]; ring

/-- No column falls below the threshold. -/
def Kept (s : Cols N × (ℕ → ℝ)) : Prop := ∀ j < N, thr < norm (columns s j).1 j

theorem thr_pos : 0 < thr := by norm_num [thr]

theorem orth_congr {Q Q' : Cols N} (v : Fin N → ℝ) : ∀ {k : ℕ}, (∀ l < k, Q l = Q' l) → orth Q v k = orth Q' v k
  | 0, _ => rfl
  | k + 1, h => by
    have ih := orth_congr (Q := Q) (Q' := Q') v (k := k) (fun l hl => h l (by omega))
    rw [orth, orth, ih, h k (by omega)]

theorem columns_spec {s : Cols N × (ℕ → ℝ)} (hk : Kept s) : ∀ {m : ℕ}, m ≤ N →
    (∀ j, m ≤ j → (columns s m).1 j = s.1 j ∧ (columns s m).2 j = s.2 j) ∧ Ortho (columns s m).1 m ∧
    ∃ (r : ℕ → ℕ → ℝ) (n : ℕ → ℝ), ∀ j < m, 0 < n j ∧ (columns s m).2 j = s.2 j + Real.log (n j) ∧
      ∀ i, s.1 j i = n j * (columns s m).1 j i + ∑ l ∈ Finset.range j, r j l * (columns s m).1 l i
  | 0, _ => ⟨fun j _ => ⟨rfl, rfl⟩, fun j hj => by omega, fun _ _ => 0, fun _ => 0, fun j hj => by omega⟩
  | m + 1, hm => by
    obtain ⟨h1, h2, r, n, h3⟩ := columns_spec hk (m := m) (by omega)
    have hn := hk m (by omega)
    have hpos : 0 < norm (columns s m).1 m := thr_pos.trans hn
    obtain ⟨o1, c, o2⟩ := orth_spec ((columns s m).1 m) h2
    have hsq : dot (orth (columns s m).1 ((columns s m).1 m) m) (orth (columns s m).1 ((columns s m).1 m) m) = norm (columns s m).1 m ^ 2 := by
      rw [norm, Real.sq_sqrt (dot_self_nonneg _)]
    have e : columns s (m + 1) = (Function.update (columns s m).1 m (fun i => orth (columns s m).1 ((columns s m).1 m) m i / norm (columns s m).1 m),
        Function.update (columns s m).2 m ((columns s m).2 m + Real.log (norm (columns s m).1 m))) := by
      rw [columns, column, if_pos hn]
    set w := orth (columns s m).1 ((columns s m).1 m) m with hw
    set ν := norm (columns s m).1 m with hν
    have hQ : ∀ j, j ≠ m → (columns s (m + 1)).1 j = (columns s m).1 j := fun j hj => by rw [e]; exact Function.update_of_ne hj _ _
    have hQm : (columns s (m + 1)).1 m = fun i => w i / ν := by rw [e]; exact Function.update_self _ _ _
    have hS : ∀ j, j ≠ m → (columns s (m + 1)).2 j = (columns s m).2 j := fun j hj => by rw [e]; exact Function.update_of_ne hj _ _
    have hSm : (columns s (m + 1)).2 m = (columns s m).2 m + Real.log ν := by rw [e]; exact Function.update_self _ _ _
    refine ⟨fun j hj => ?_, fun j hj k hk' => ?_, Function.update r m c, Function.update n m ν, fun j hj => ?_⟩
    · rw [hQ j (by omega), hS j (by omega)]
      exact h1 j (by omega)
    · rcases Nat.lt_or_ge j m with hjm | hjm
      · rcases Nat.lt_or_ge k m with hkm | hkm
        · rw [hQ j (by omega), hQ k (by omega)]
          exact h2 j hjm k hkm
        · have : k = m := by omega
          subst this
          rw [hQ j (by omega), hQm, dot_comm, dot_div, o1 j hjm, if_neg (by omega), zero_div]
      · have : j = m := by omega
        subst this
        rcases Nat.lt_or_ge k j with hkm | hkm
        · rw [hQ k (by omega), hQm, dot_div, o1 k hkm, if_neg (by omega), zero_div]
        · have : k = j := by omega
          subst this
          rw [hQm, dot_div, dot_comm, dot_div, hsq, if_pos rfl]
          field_simp
    · rcases Nat.lt_or_ge j m with hjm | hjm
      · obtain ⟨g1, g2, g3⟩ := h3 j hjm
        rw [Function.update_of_ne (by omega), Function.update_of_ne (by omega), hS j (by omega)]
        refine ⟨g1, g2, fun i => ?_⟩
        rw [hQ j (by omega), g3 i]
        congr 1
        exact Finset.sum_congr rfl (fun l hl => by rw [Finset.mem_range] at hl; rw [hQ l (by omega)])
      · have : j = m := by omega
        subst this
        rw [Function.update_self, Function.update_self, hSm, (h1 j le_rfl).2]
        refine ⟨hpos, rfl, fun i => ?_⟩
        rw [hQm]
        have := o2 i
        rw [(h1 j le_rfl).1] at this
        rw [this]
        have hh : ν * (w i / ν) = w i := by field_simp
        simp only [hh]
        congr 1
        exact Finset.sum_congr rfl (fun l hl => by rw [Finset.mem_range] at hl; rw [hQ l (by omega)])

/-! ## Determinants -/

/-- The frame as a matrix. -/
def mat (Q : Cols N) : Matrix (Fin N) (Fin N) ℝ := Matrix.of (fun i j => Q j i)

theorem mat_mul (J : Fin N → Fin N → ℝ) (Q : Cols N) : mat (mul J Q) = Matrix.of J * mat Q := by
  ext i j
  rw [Matrix.mul_apply]; rfl

theorem ortho_det {Q : Cols N} (h : Ortho Q N) : |(mat Q).det| = 1 := by
  have : (mat Q).transpose * mat Q = 1 := by
    ext i j
    rw [Matrix.mul_apply, Matrix.one_apply]
    have := h i i.2 j j.2
    rw [dot] at this
    simp only [mat, Matrix.transpose_apply, Matrix.of_apply]
    rw [this]
    simp only [Fin.ext_iff]
  have hd := congrArg Matrix.det this
  rw [Matrix.det_mul, Matrix.det_transpose, Matrix.det_one] at hd
  rcases mul_self_eq_one_iff.1 hd with h | h <;> rw [h] <;> simp

theorem ident_ortho : Ortho (ident N) N := by
  intro j hj k hk
  rw [dot, Finset.sum_eq_single (⟨j, hj⟩ : Fin N)]
  · simp [ident]
  · intro i _ hi
    have : i.val ≠ j := fun h => hi (Fin.ext h)
    simp [ident, this]
  · simp

/-- The logarithms one iteration adds sum to the logarithm of the determinant of the frame. -/
theorem columns_log {s : Cols N × (ℕ → ℝ)} (hk : Kept s) : Ortho (columns s N).1 N ∧
    ∑ j : Fin N, (columns s N).2 j = ∑ j : Fin N, s.2 j + Real.log |(mat s.1).det| := by
  obtain ⟨-, h2, r, n, h3⟩ := columns_spec hk le_rfl
  refine ⟨h2, ?_⟩
  set R : Matrix (Fin N) (Fin N) ℝ := Matrix.of (fun l j => if l < j then r j l else if l = j then n j else 0) with hR
  have hA : mat s.1 = mat (columns s N).1 * R := by
    ext i j
    rw [Matrix.mul_apply]
    have := (h3 j j.2).2.2 i
    change s.1 j i = _
    rw [this]
    have hsum : ∀ l : Fin N, mat (columns s N).1 i l * R l j = (if l = j then n j * (columns s N).1 j i else 0) + (if l < j then r j l * (columns s N).1 l i else 0) := by
      intro l
      simp only [mat, hR, Matrix.of_apply]
      rcases lt_trichotomy l j with h | h | h
      · rw [if_pos h, if_neg h.ne, if_pos h]; ring
      · subst h; simp; ring
      · rw [if_neg h.not_gt, if_neg h.ne', if_neg h.ne', if_neg h.not_gt]; ring
    rw [Finset.sum_congr rfl (fun l _ => hsum l), Finset.sum_add_distrib, Finset.sum_ite_eq' Finset.univ j, if_pos (Finset.mem_univ _)]
    congr 1
    have h1 : ∀ l : Fin N, (if l < j then r j l * (columns s N).1 l i else 0) = (fun l : ℕ => if l < j.val then r j l * (columns s N).1 l i else 0) l := by
      intro l; simp only [Fin.lt_def]
    rw [Finset.sum_congr rfl (fun l _ => h1 l), Fin.sum_univ_eq_sum_range (fun l : ℕ => if l < j.val then r j l * (columns s N).1 l i else 0),
      ← Finset.sum_filter]
    refine Finset.sum_congr ?_ (fun _ _ => rfl)
    ext l
    simp only [Finset.mem_range, Finset.mem_filter]
    have := j.2
    omega
  have hdet : |(mat s.1).det| = ∏ j : Fin N, n j := by
    rw [hA, Matrix.det_mul, abs_mul, ortho_det h2, one_mul, Matrix.det_of_upperTriangular]
    · have : ∀ j : Fin N, R j j = n j := fun j => by simp [hR]
      rw [Finset.prod_congr rfl (fun j _ => this j), abs_of_pos]
      exact Finset.prod_pos (fun j _ => (h3 j j.2).1)
    · intro l j hlj
      have h : j < l := hlj
      simp only [hR, Matrix.of_apply]
      rw [if_neg h.not_gt, if_neg h.ne']
  rw [hdet, Real.log_prod (s := Finset.univ) (f := fun j : Fin N => n j) (fun j _ => (h3 j j.2).1.ne'), ← Finset.sum_add_distrib]
  exact Finset.sum_congr rfl (fun j _ => (h3 j j.2).2.1)

/-! ## The exponents -/

section
variable (f : (Fin N → ℝ) → Fin N → ℝ) (J : (Fin N → ℝ) → Fin N → Fin N → ℝ) (x : Fin N → ℝ) (skip : ℕ)

theorem run_succ (n : ℕ) : run f J x skip (n + 1) = step f J (run f J x skip n) := by
  rw [run, run, Function.iterate_succ_apply']

theorem run_state (n : ℕ) : (run f J x skip n).1 = f^[skip + n] x := by
  induction n with
  | zero => rfl
  | succ n ih => rw [run_succ, step, ih, ← add_assoc, Function.iterate_succ_apply']

/-- No column falls below the threshold in the first `n` iterations. -/
def AllKept (n : ℕ) : Prop := ∀ m < n, Kept (mul (J (f^[skip + m] x)) (run f J x skip m).2.1, (run f J x skip m).2.2)

variable {f J x skip}

theorem run_log {n : ℕ} (h : AllKept f J x skip n) : Ortho (run f J x skip n).2.1 N ∧
    ∑ j : Fin N, (run f J x skip n).2.2 j = ∑ m ∈ Finset.range n, Real.log |(Matrix.of (J (f^[skip + m] x))).det| := by
  induction n with
  | zero => exact ⟨ident_ortho, by simp [run]⟩
  | succ n ih =>
    obtain ⟨h1, h2⟩ := ih (fun m hm => h m (by omega))
    obtain ⟨g1, g2⟩ := columns_log (h n (by omega))
    rw [run_succ, step, run_state]
    refine ⟨g1, ?_⟩
    rw [g2, h2, Finset.sum_range_succ]
    congr 2
    simp only
    rw [mat_mul, Matrix.det_mul, abs_mul, ortho_det h1, mul_one]

/-- **C131.** The exponents sum to the mean of the logarithms of the determinants of the Jacobian along the orbit, for every map of every dimension, as
long as no column falls below the threshold. -/
theorem lyapunov_sum {n : ℕ} (hn : n ≠ 0) (h : AllKept f J x skip n) : ∃ e, compute f J x n skip = .ret e ∧
    ∑ i, e i = (∑ m ∈ Finset.range n, Real.log |(Matrix.of (J (f^[skip + m] x))).det|) / n := by
  refine ⟨_, by rw [compute, if_neg hn], ?_⟩
  rw [← Finset.sum_div, (run_log h).2]

end

/-! ## Dimension one -/

theorem kept_one {J : Fin 1 → Fin 1 → ℝ} {Q : Cols 1} {S : ℕ → ℝ} (hQ : Ortho Q 1) (h : thr < |J 0 0|) : Kept (mul J Q, S) := by
  intro j hj
  have : j = 0 := by omega
  subst this
  have hq := hQ 0 one_pos 0 one_pos
  rw [dot, Fin.sum_univ_one, if_pos rfl] at hq
  rw [columns, norm, orth, dot, Fin.sum_univ_one]
  simp only [mul, Fin.sum_univ_one]
  rw [show J 0 0 * Q 0 0 * (J 0 0 * Q 0 0) = J 0 0 ^ 2 * (Q 0 0 * Q 0 0) by ring, hq, mul_one, Real.sqrt_sq_eq_abs]
  exact h

/-- **C131.** In dimension one the exponent is the mean of the logarithms of the slopes along the orbit. -/
theorem lyapunov_one {f : (Fin 1 → ℝ) → Fin 1 → ℝ} {J : (Fin 1 → ℝ) → Fin 1 → Fin 1 → ℝ} {x : Fin 1 → ℝ} {skip n : ℕ} (hn : n ≠ 0)
    (h : ∀ m < n, thr < |J (f^[skip + m] x) 0 0|) : ∃ e, compute f J x n skip = .ret e ∧
      e 0 = (∑ m ∈ Finset.range n, Real.log |J (f^[skip + m] x) 0 0|) / n := by
  have hk : ∀ k ≤ n, AllKept f J x skip k := by
    intro k hk
    induction k with
    | zero => intro m hm; omega
    | succ k ih =>
      have ih := ih (by omega)
      intro m hm
      rcases Nat.lt_or_ge m k with hmk | hmk
      · exact ih m hmk
      · have : m = k := by omega
        subst this
        exact kept_one (run_log ih).1 (h m (by omega))
  obtain ⟨e, h1, h2⟩ := lyapunov_sum hn (hk n le_rfl)
  refine ⟨e, h1, ?_⟩
  rw [Fin.sum_univ_one] at h2
  rw [h2]
  congr 1
  refine Finset.sum_congr rfl (fun m _ => ?_)
  rw [Matrix.det_fin_one]; rfl

/-- **C131.** For the tent map the exponent computed is the analytical one, whatever the start and the number of iterations. -/
theorem lyapunov_tent {μ : ℝ} (hμ : thr < μ) (x : Fin 1 → ℝ) {n : ℕ} (hn : n ≠ 0) (skip : ℕ) :
    ∃ e, compute (Tent.map μ) (Tent.jacobian μ) x n skip = .ret e ∧ e 0 = Tent.lyapunov μ := by
  have hp : 0 < μ := thr_pos.trans hμ
  have hJ : ∀ y, |Tent.jacobian μ y 0 0| = μ := by
    intro y
    change |if y 0 < 1 / 2 then μ else -μ| = μ
    split_ifs
    · exact abs_of_pos hp
    · rw [abs_neg, abs_of_pos hp]
  obtain ⟨e, h1, h2⟩ := lyapunov_one (f := Tent.map μ) (J := Tent.jacobian μ) (x := x) (skip := skip) hn (fun m _ => by rw [hJ]; exact hμ)
  refine ⟨e, h1, ?_⟩
  rw [h2, Finset.sum_congr rfl (fun m _ => by rw [hJ]), Finset.sum_const, Finset.card_range, nsmul_eq_mul, Tent.lyapunov]
  have : (n : ℝ) ≠ 0 := by exact_mod_cast hn
  split_ifs with h
  · rw [h]; field_simp
  · field_simp

/-! ## Dimension two -/

/-- The sum of the squares of the entries. -/
def frob (J : Fin 2 → Fin 2 → ℝ) : ℝ := J 0 0 ^ 2 + J 0 1 ^ 2 + J 1 0 ^ 2 + J 1 1 ^ 2

theorem kept_two {J : Fin 2 → Fin 2 → ℝ} {Q : Cols 2} {S : ℕ → ℝ} (hQ : Ortho Q 2) (h : thr * Real.sqrt (frob J) < |(Matrix.of J).det|) : Kept (mul J Q, S) := by
  have q00 := hQ 0 (by omega) 0 (by omega)
  have q01 := hQ 0 (by omega) 1 (by omega)
  have q11 := hQ 1 (by omega) 1 (by omega)
  rw [dot, Fin.sum_univ_two] at q00 q01 q11
  simp only [if_true, zero_ne_one, if_false] at q00 q01 q11
  have hdetJ : (Matrix.of J).det = J 0 0 * J 1 1 - J 0 1 * J 1 0 := by rw [Matrix.det_fin_two]; rfl
  set A := mul J Q with hA
  set a := Q 0 0
  set b := Q 0 1
  set c := Q 1 0
  set d := Q 1 1
  have hA00 : A 0 0 = J 0 0 * a + J 0 1 * b := by rw [hA]; simp only [mul, Fin.sum_univ_two]; rfl
  have hA01 : A 0 1 = J 1 0 * a + J 1 1 * b := by rw [hA]; simp only [mul, Fin.sum_univ_two]; rfl
  have hA10 : A 1 0 = J 0 0 * c + J 0 1 * d := by rw [hA]; simp only [mul, Fin.sum_univ_two]; rfl
  have hA11 : A 1 1 = J 1 0 * c + J 1 1 * d := by rw [hA]; simp only [mul, Fin.sum_univ_two]; rfl
  have hdq : (a * d - b * c) ^ 2 = 1 := by
    linear_combination (c * c + d * d) * q00 + q11 - (a * c + b * d) * q01
  set D := (Matrix.of J).det with hD
  have hdA : (A 0 0 * A 1 1 - A 0 1 * A 1 0) ^ 2 = D ^ 2 := by
    rw [hA00, hA01, hA10, hA11, hdetJ]
    linear_combination (J 0 0 * J 1 1 - J 0 1 * J 1 0) ^ 2 * hdq
  have hF0 : 0 ≤ frob J := by rw [frob]; positivity
  have hcs : ∀ u v : ℝ, u * u + v * v = 1 → (J 0 0 * u + J 0 1 * v) ^ 2 + (J 1 0 * u + J 1 1 * v) ^ 2 ≤ frob J := by
    intro u v huv
    have e : frob J - ((J 0 0 * u + J 0 1 * v) ^ 2 + (J 1 0 * u + J 1 1 * v) ^ 2) = (J 0 0 * v - J 0 1 * u) ^ 2 + (J 1 0 * v - J 1 1 * u) ^ 2 := by
      rw [frob]
      linear_combination (- (J 0 0 ^ 2 + J 0 1 ^ 2 + J 1 0 ^ 2 + J 1 1 ^ 2)) * huv
    have := add_nonneg (sq_nonneg (J 0 0 * v - J 0 1 * u)) (sq_nonneg (J 1 0 * v - J 1 1 * u))
    linarith
  have hc0 : A 0 0 ^ 2 + A 0 1 ^ 2 ≤ frob J := by rw [hA00, hA01]; exact hcs a b q00
  have hc1 : A 1 0 ^ 2 + A 1 1 ^ 2 ≤ frob J := by rw [hA10, hA11]; exact hcs c d q11
  have hD2 : thr ^ 2 * frob J < D ^ 2 := by
    rw [← sq_abs D, ← Real.sq_sqrt hF0, ← mul_pow]
    exact pow_lt_pow_left₀ h (mul_nonneg thr_pos.le (Real.sqrt_nonneg _)) two_ne_zero
  have hDpos : 0 < D ^ 2 := lt_of_le_of_lt (mul_nonneg (sq_nonneg _) hF0) hD2
  have hn0 : thr ^ 2 < A 0 0 ^ 2 + A 0 1 ^ 2 := by
    have h1 : D ^ 2 ≤ (A 0 0 ^ 2 + A 0 1 ^ 2) * (A 1 0 ^ 2 + A 1 1 ^ 2) := by
      rw [← hdA]
      nlinarith [sq_nonneg (A 0 0 * A 1 0 + A 0 1 * A 1 1)]
    have h2 : (A 0 0 ^ 2 + A 0 1 ^ 2) * (A 1 0 ^ 2 + A 1 1 ^ 2) ≤ (A 0 0 ^ 2 + A 0 1 ^ 2) * frob J := mul_le_mul_of_nonneg_left hc1 (by positivity)
    by_contra hcon
    push Not at hcon
    have := mul_le_mul_of_nonneg_right hcon hF0
    linarith
  have e0 : norm A 0 = Real.sqrt (A 0 0 ^ 2 + A 0 1 ^ 2) := by
    rw [norm, orth, dot, Fin.sum_univ_two]; congr 1; ring
  have hk0 : thr < norm A 0 := by
    rw [e0]; exact Real.lt_sqrt_of_sq_lt hn0
  have hpos0 : 0 < norm A 0 := thr_pos.trans hk0
  have hsq0 : norm A 0 ^ 2 = A 0 0 ^ 2 + A 0 1 ^ 2 := by rw [e0, Real.sq_sqrt (by positivity)]
  intro j hj
  rcases Nat.lt_or_ge j 1 with h0 | h1
  · have : j = 0 := by omega
    subst this
    exact hk0
  · have : j = 1 := by omega
    subst this
    have ec : (columns (A, S) 1).1 = Function.update A 0 (fun i => A 0 i / norm A 0) := by
      rw [columns, columns, column, if_pos hk0]; rfl
    rw [ec, norm]
    apply Real.lt_sqrt_of_sq_lt
    have eq1 : Function.update A 0 (fun i => A 0 i / norm A 0) 1 = A 1 := Function.update_of_ne (by omega) _ _
    have eq0 : Function.update A 0 (fun i => A 0 i / norm A 0) 0 = fun i => A 0 i / norm A 0 := Function.update_self _ _ _
    rw [eq1, orth, orth, eq0, dot, Fin.sum_univ_two]
    simp only [dot, Fin.sum_univ_two]
    set ν := norm A 0 with hν
    have hν' := hpos0.ne'
    have key : (A 1 0 - (A 1 0 * (A 0 0 / ν) + A 1 1 * (A 0 1 / ν)) * (A 0 0 / ν)) * (A 1 0 - (A 1 0 * (A 0 0 / ν) + A 1 1 * (A 0 1 / ν)) * (A 0 0 / ν)) +
        (A 1 1 - (A 1 0 * (A 0 0 / ν) + A 1 1 * (A 0 1 / ν)) * (A 0 1 / ν)) * (A 1 1 - (A 1 0 * (A 0 0 / ν) + A 1 1 * (A 0 1 / ν)) * (A 0 1 / ν))
        = D ^ 2 / ν ^ 2 := by
      have hu : (A 0 0 / ν) ^ 2 + (A 0 1 / ν) ^ 2 = 1 := by
        rw [div_pow, div_pow, ← add_div, ← hsq0]; field_simp
      have hD' : D ^ 2 / ν ^ 2 = (A 0 0 / ν * A 1 1 - A 0 1 / ν * A 1 0) ^ 2 := by
        rw [← hdA]; field_simp
      rw [hD']
      set u := A 0 0 / ν
      set v := A 0 1 / ν
      linear_combination (-(A 1 0 ^ 2 + A 1 1 ^ 2) + (A 1 0 * u + A 1 1 * v) ^ 2) * hu
    rw [key, lt_div_iff₀ (by positivity), hsq0]
    exact lt_of_le_of_lt (mul_le_mul_of_nonneg_left hc0 (sq_nonneg _)) hD2

/-- **C131.** In dimension two the exponents sum to the mean of the logarithms of the determinants, if along the orbit the determinant is not tiny
against the entries. -/
theorem lyapunov_two {f : (Fin 2 → ℝ) → Fin 2 → ℝ} {J : (Fin 2 → ℝ) → Fin 2 → Fin 2 → ℝ} {x : Fin 2 → ℝ} {skip n : ℕ} (hn : n ≠ 0)
    (h : ∀ m < n, thr * Real.sqrt (frob (J (f^[skip + m] x))) < |(Matrix.of (J (f^[skip + m] x))).det|) : ∃ e, compute f J x n skip = .ret e ∧
      e 0 + e 1 = (∑ m ∈ Finset.range n, Real.log |(Matrix.of (J (f^[skip + m] x))).det|) / n := by
  have hk : ∀ k ≤ n, AllKept f J x skip k := by
    intro k hk
    induction k with
    | zero => intro m hm; omega
    | succ k ih =>
      have ih := ih (by omega)
      intro m hm
      rcases Nat.lt_or_ge m k with hmk | hmk
      · exact ih m hmk
      · have : m = k := by omega
        subst this
        exact kept_two (run_log ih).1 (h m (by omega))
  obtain ⟨e, h1, h2⟩ := lyapunov_sum hn (hk n le_rfl)
  exact ⟨e, h1, by rw [← h2, Fin.sum_univ_two]⟩

/-- **C131.** For the standard map the two exponents sum to zero, whatever the start and the number of iterations. -/
theorem lyapunov_standard {K : ℝ} (hK : |K| ≤ 10 ^ 20) (x : Fin 2 → ℝ) {n : ℕ} (hn : n ≠ 0) (skip : ℕ) :
    ∃ e, compute (Standard.map K) (Standard.jacobian K) x n skip = .ret e ∧ e 0 + e 1 = 0 := by
  have hd : ∀ y, (Matrix.of (Standard.jacobian K y)).det = 1 := fun y => (standard_spec K y).2.2.2.1
  obtain ⟨e, h1, h2⟩ := lyapunov_two (f := Standard.map K) (J := Standard.jacobian K) (x := x) (skip := skip) hn (fun m _ => by
    rw [hd, abs_one]
    set y := (Standard.map K)^[skip + m] x
    have hc : |K * Real.cos (y 1)| ≤ 10 ^ 20 := by
      rw [abs_mul]
      calc |K| * |Real.cos (y 1)| ≤ |K| * 1 := mul_le_mul_of_nonneg_left (Real.abs_cos_le_one _) (abs_nonneg _)
        _ ≤ 10 ^ 20 := by rw [mul_one]; exact hK
    have hf : frob (Standard.jacobian K y) < (10 ^ 30 : ℝ) ^ 2 := by
      have e : frob (Standard.jacobian K y) = 1 ^ 2 + (K * Real.cos (y 1)) ^ 2 + 1 ^ 2 + (1 + K * Real.cos (y 1)) ^ 2 := rfl
      rw [e]
      obtain ⟨g1, g2⟩ := abs_le.1 hc
      nlinarith
    have := (Real.sqrt_lt' (by norm_num : (0 : ℝ) < 10 ^ 30)).2 hf
    rw [thr, one_div, inv_mul_lt_iff₀ (by norm_num), mul_one]
    exact this)
  refine ⟨e, h1, ?_⟩
  rw [h2, Finset.sum_congr rfl (fun m _ => by rw [hd, abs_one, Real.log_one])]
  simp

/-- **C131.** For the Hénon map the two exponents sum to `log |b|`, as long as the orbit does not escape. -/
theorem lyapunov_henon {a b : ℝ} (x : Fin 2 → ℝ) {n : ℕ} (hn : n ≠ 0) (skip : ℕ)
    (h : ∀ m < n, thr * Real.sqrt (4 * a ^ 2 * ((Henon.map a b)^[skip + m] x) 0 ^ 2 + 1 + b ^ 2) < |b|) :
    ∃ e, compute (Henon.map a b) (Henon.jacobian a b) x n skip = .ret e ∧ e 0 + e 1 = Real.log |b| := by
  have hd : ∀ y, |(Matrix.of (Henon.jacobian a b y)).det| = |b| := fun y => by rw [(henon_spec a b y).2, Henon.jacobianDet, abs_neg]
  obtain ⟨e, h1, h2⟩ := lyapunov_two (f := Henon.map a b) (J := Henon.jacobian a b) (x := x) (skip := skip) hn (fun m hm => by
    rw [hd]
    have := h m hm
    set y := (Henon.map a b)^[skip + m] x
    have e : frob (Henon.jacobian a b y) = 4 * a ^ 2 * y 0 ^ 2 + 1 + b ^ 2 := by
      have : frob (Henon.jacobian a b y) = (-2 * a * y 0) ^ 2 + 1 ^ 2 + b ^ 2 + 0 ^ 2 := rfl
      rw [this]; ring
    rw [e]; exact this)
  refine ⟨e, h1, ?_⟩
  rw [h2, Finset.sum_congr rfl (fun m _ => by rw [hd]), Finset.sum_const, Finset.card_range, nsmul_eq_mul]
  have : (n : ℝ) ≠ 0 := by exact_mod_cast hn
  field_simp

/-- A non-trivial case: the classic parameters, at a fixed point of the map with `a = 0`. -/
example (n : ℕ) : ∀ m < n, thr * Real.sqrt (4 * (0 : ℝ) ^ 2 * ((Henon.map 0 (1 / 2))^[0 + m] ![2, 1]) 0 ^ 2 + 1 + (1 / 2) ^ 2) < |(1 / 2 : ℝ)| := by
  intro m _
  have h1 : Real.sqrt (5 / 4) ≤ 2 := Real.sqrt_le_iff.2 ⟨by norm_num, by norm_num⟩
  rw [abs_of_pos (by norm_num), show (4 * (0 : ℝ) ^ 2 * ((Henon.map 0 (1 / 2))^[0 + m] ![2, 1]) 0 ^ 2 + 1 + (1 / 2) ^ 2) = 5 / 4 by ring]
  have : thr * Real.sqrt (5 / 4) ≤ thr * 2 := mul_le_mul_of_nonneg_left h1 thr_pos.le
  refine lt_of_le_of_lt this ?_
  norm_num [thr]

/-! ## Where the code disagrees with its documentation -/

/-- **C131, where the code disagrees.** The exponents are not in descending order, and `maxExponent`, the first one, is not the largest: for the
linear map that halves the first and doubles the second coordinate the exponents are `-log 2` and `log 2`. -/
theorem lyapunov_order_wrong : ∃ (f : (Fin 2 → ℝ) → Fin 2 → ℝ) (J : (Fin 2 → ℝ) → Fin 2 → Fin 2 → ℝ) (x : Fin 2 → ℝ), (∀ y, IsJacobian f (J y) y) ∧
    ∃ e, compute f J x 1 0 = .ret e ∧ e 0 < 0 ∧ 0 < e 1 := by
  set J : Fin 2 → Fin 2 → ℝ := ![![1 / 2, 0], ![0, 2]] with hJ
  have n0 : norm (mul J (ident 2)) 0 = 1 / 2 := by
    rw [norm, orth, dot, Fin.sum_univ_two]
    simp only [mul, ident, Fin.sum_univ_two, hJ]
    norm_num
  have h0 : thr < norm (mul J (ident 2)) 0 := by rw [n0]; norm_num [thr]
  have c1 : columns (mul J (ident 2), fun _ => 0) 1 = (Function.update (mul J (ident 2)) 0 (fun i => mul J (ident 2) 0 i / (1 / 2)), Function.update (fun _ => 0) 0 (0 + Real.log (1 / 2))) := by
    rw [columns, columns, column, if_pos h0, n0, orth]
  have n1 : norm (columns (mul J (ident 2), fun _ => 0) 1).1 1 = 2 := by
    rw [c1, norm, orth, orth, dot, Fin.sum_univ_two]
    simp only [dot, Fin.sum_univ_two]
    rw [Function.update_of_ne (by norm_num), Function.update_self]
    simp only [mul, ident, Fin.sum_univ_two, hJ]
    norm_num
  have h1 : thr < norm (columns (mul J (ident 2), fun _ => 0) 1).1 1 := by rw [n1]; norm_num [thr]
  have hs : (columns (mul J (ident 2), fun _ => 0) 2).2 = Function.update (Function.update (fun _ => 0) 0 (0 + Real.log (1 / 2))) 1 (0 + Real.log 2) := by
    rw [columns, column, if_pos h1, n1, c1]
    simp
  refine ⟨fun y => ![y 0 / 2, 2 * y 1], fun _ => J, 0, fun y i j => ?_, _, by rw [compute, if_neg (by norm_num)], ?_, ?_⟩
  · fin_cases i <;> fin_cases j <;>
      (apply cubic <;> simp [hJ, lagrange, Function.update_apply] <;> intros <;> first | ring1 | (right; ring1))
  · change (columns (mul J (ident 2), fun _ => 0) 2).2 0 / _ < 0
    rw [hs, Function.update_of_ne (by norm_num), Function.update_self]
    have : Real.log (1 / 2) < 0 := Real.log_neg (by norm_num) (by norm_num)
    simpa using this
  · change 0 < (columns (mul J (ident 2), fun _ => 0) 2).2 1 / _
    rw [hs, Function.update_self]
    have : 0 < Real.log 2 := Real.log_pos (by norm_num)
    simpa using this

/-- **C131, where the code disagrees.** Once a slope is zero, the frame is lost and no later iteration counts: the exponent of the logistic map
reported for an orbit through the maximum is the sum up to there. -/
theorem lyapunov_lost (x : Fin 1 → ℝ) (hx : x 0 = 1 / 2) {n : ℕ} (hn : n ≠ 0) (r : ℝ) :
    ∃ e, compute (Logistic.map r) (Logistic.jacobian r) x n 0 = .ret e ∧ e 0 = 0 := by
  have hr : ∀ m, (run (Logistic.map r) (Logistic.jacobian r) x 0 (m + 1)).2 = ((fun _ _ => 0), fun _ => 0) := by
    have hz : ∀ S, columns ((fun _ _ => 0 : Cols 1), S) 1 = ((fun _ _ => 0), S) := by
      intro S
      have : norm (fun _ _ => 0 : Cols 1) 0 = 0 := by simp [norm, orth, dot]
      rw [columns, columns, column, if_neg]
      rw [this]; exact not_lt.2 thr_pos.le
    intro m
    induction m with
    | zero =>
      rw [run_succ, step]
      have : mul (Logistic.jacobian r (run (Logistic.map r) (Logistic.jacobian r) x 0 0).1) (run (Logistic.map r) (Logistic.jacobian r) x 0 0).2.1 = fun _ _ => 0 := by
        funext j i
        fin_cases i
        simp [mul, run, Logistic.jacobian, hx]
      rw [this, hz]; rfl
    | succ m ih =>
      rw [run_succ, step, ih]
      have : mul (Logistic.jacobian r (run (Logistic.map r) (Logistic.jacobian r) x 0 (m + 1)).1) (fun _ _ => 0) = fun _ _ => 0 := by
        funext j i
        simp [mul]
      simp only [this]
      rw [hz]
  refine ⟨_, by rw [compute, if_neg hn], ?_⟩
  obtain ⟨m, rfl⟩ := Nat.exists_eq_succ_of_ne_zero hn
  rw [hr]; simp

end Verif.Systems.Lyap
