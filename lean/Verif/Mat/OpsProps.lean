import Verif.Mat.Ops
import Verif.Mat.FaddeevProps
import Verif.Mat.DenseProps
import Mathlib.Tactic
import Mathlib.Analysis.Normed.Algebra.MatrixExponential
import Mathlib.RingTheory.Nilpotent.Exp

/-!
# Matrix functions, commutators and complex matrices

Property C147.  The specification is Mathlib's: matrix powers, factorials, `NormedSpace.exp`,
`IsNilpotent.exp`, transposes and conjugate transposes.
-/

set_option autoImplicit false

namespace Verif.Mat.Ops

open Verif.Mat Verif.Mat.Utils
open Verif.Mat.Dense (Is Shape ofFn)
open Nat (factorial)

section
variable {K : Type} [Field K]

theorem is_toMat {n : ℕ} {m : Dense K} {f : ℕ → ℕ → K} (h : Is m n n f) :
    Shape n n ∧ m = ofM (toMat n f) := by
  obtain ⟨hs, rfl⟩ := Dense.is_unique.1 h
  exact ⟨hs, ofFn_eq_ofM n f⟩

theorem is_ofM' {n : ℕ} (h : Shape n n) (A : Matrix (Fin n) (Fin n) K) : Is (ofM A) n n (fnOf A) :=
  Dense.is_ofFn h _

theorem unit_ofM {n : ℕ} (f : ℕ → ℕ → K) :
    (ofFn n n f).makeUnit = .ret (ofM (1 : Matrix (Fin n) (Fin n) K)) := by
  rw [Dense.makeUnit_ofFn]
  congr 1
  refine Dense.ofFn_congr fun i hi j hj => ?_
  rw [fnOf_lt _ hi hj, Matrix.one_apply]
  simp

theorem zero_ofM {n : ℕ} : (ofFn n n (fun _ _ => (0 : K))) = ofM (0 : Matrix (Fin n) (Fin n) K) :=
  Dense.ofFn_congr fun i hi j hj => by rw [fnOf_lt _ hi hj]; rfl

theorem addAssign_ofM {n : ℕ} (A B : Matrix (Fin n) (Fin n) K) :
    (ofM A).addAssign (ofM B) = .ret (ofM (A + B)) := by
  rw [ofM, ofM, Dense.addAssign, Dense.zipDataInPlace_ofFn]
  congr 1
  refine Dense.ofFn_congr fun i hi j hj => ?_
  rw [fnOf_lt _ hi hj, fnOf_lt _ hi hj, fnOf_lt _ hi hj, Matrix.add_apply]

theorem add_ofM {n : ℕ} (h : Shape n n) (A B : Matrix (Fin n) (Fin n) K) :
    (ofM A).add (ofM B) = .ret (ofM (A + B)) := zip_ofM h A B _

theorem sub_ofM {n : ℕ} (h : Shape n n) (A B : Matrix (Fin n) (Fin n) K) :
    (ofM A).sub (ofM B) = .ret (ofM (A - B)) := zip_ofM h A B _

theorem scale_ofM {n : ℕ} (h : Shape n n) (A : Matrix (Fin n) (Fin n) K) (c : K) :
    (ofM A).scale c = .ret (ofM (c • A)) := by
  rw [Dense.scale, map_ofM h]
  congr 2
  ext i j
  simp [mul_comm]

theorem divS_ofM {n : ℕ} (h : Shape n n) (A : Matrix (Fin n) (Fin n) K) {c : K} (hc : c ≠ 0) :
    divS (ofM A) c = .ret (ofM (c⁻¹ • A)) := by
  rw [divS, if_neg hc, map_ofM h]
  congr 2
  ext i j
  simp [div_eq_inv_mul]

theorem transpose_ofM {n : ℕ} (h : Shape n n) (A : Matrix (Fin n) (Fin n) K) :
    (ofM A).transpose = .ret (ofM A.transpose) := by
  rw [ofM, Dense.transpose_ofFn h]
  congr 1
  refine Dense.ofFn_congr fun i hi j hj => ?_
  rw [fnOf_lt _ hj hi, fnOf_lt _ hi hj, Matrix.transpose_apply]

/-! ## Sums over even and odd degrees -/

theorem sum_odd {M : Type} [AddCommMonoid M] (g : ℕ → M) (N : ℕ) :
    ∑ k ∈ (Finset.range N).filter Odd, g k = ∑ j ∈ Finset.range (N / 2), g (2 * j + 1) := by
  induction N with
  | zero => simp
  | succ N ih =>
    rw [Finset.range_add_one, Finset.filter_insert]
    rcases Nat.even_or_odd N with h | h
    · rw [if_neg (by simpa using h), ih]
      congr 2
      obtain ⟨t, rfl⟩ := h
      omega
    · rw [if_pos h, Finset.sum_insert (by simp), ih]
      obtain ⟨t, rfl⟩ := h
      rw [show (2 * t + 1 + 1) / 2 = t + 1 by omega, show (2 * t + 1) / 2 = t by omega,
        Finset.sum_range_succ, add_comm]

theorem sum_even {M : Type} [AddCommMonoid M] (g : ℕ → M) (N : ℕ) :
    ∑ k ∈ (Finset.range N).filter Even, g k = ∑ j ∈ Finset.range ((N + 1) / 2), g (2 * j) := by
  induction N with
  | zero => simp
  | succ N ih =>
    rw [Finset.range_add_one, Finset.filter_insert]
    rcases Nat.even_or_odd N with h | h
    · rw [if_pos h, Finset.sum_insert (by simp), ih]
      obtain ⟨t, rfl⟩ := h
      rw [show (t + t + 1 + 1) / 2 = t + 1 by omega, show (t + t + 1) / 2 = t by omega,
        Finset.sum_range_succ, add_comm, two_mul]
    · rw [if_neg (by simpa using h), ih]
      congr 2
      obtain ⟨t, rfl⟩ := h
      omega

/-! ## The series -/

variable [CharZero K]

theorem fact_ne (k : ℕ) : (factorial k : K) ≠ 0 := by exact_mod_cast Nat.factorial_ne_zero k

theorem fact_two (k : ℕ) :
    (factorial k : K) * (((k + 1 : ℕ) : K) * ((k + 2 : ℕ) : K)) = (factorial (k + 2) : K) := by
  rw [Nat.factorial_succ (k + 1), Nat.factorial_succ k]
  push_cast
  ring

/-- **C147.**  `Exp(a, m)` is the Taylor polynomial of degree `m`. -/
theorem exp_spec (a : Dense K) (n : ℕ) (f : ℕ → ℕ → K) (ha : Is a n n f) (m : ℕ) :
    ∃ r, exp a m = .ret r ∧
      Is r n n (fnOf (∑ k ∈ Finset.range (m + 1), (factorial k : K)⁻¹ • toMat n f ^ k)) := by
  obtain ⟨hs, rfl⟩ := is_toMat ha
  generalize toMat n f = A
  have hr : (ofM A).rows = n := rfl
  have hc : (ofM A).cols = n := rfl
  obtain ⟨t, ht, e⟩ := forFromTo_rule
    (fun i (s : St K) => s = ⟨ofM (∑ k ∈ Finset.range i, (factorial k : K)⁻¹ • A ^ k), ofM (A ^ i),
      (factorial (i - 1) : K)⟩) 1 (m + 1) (by omega)
    ⟨ofM (1 : Matrix (Fin n) (Fin n) K), ofM A, 1⟩ (expStep (ofM A))
    (by simp)
    (by
      rintro i _ h1 _ rfl
      obtain ⟨i, rfl⟩ : ∃ j, i = j + 1 := ⟨i - 1, by omega⟩
      have e : (factorial (i + 1 - 1) : K) * ((i + 1 : ℕ) : K) = (factorial (i + 1) : K) := by
        rw [Nat.factorial_succ]; push_cast [Nat.add_sub_cancel]; ring
      refine ⟨_, by
        simp only [expStep]
        rw [e, divS_ofM hs _ (fact_ne _), Outcome.bind_ret, addAssign_ofM, Outcome.bind_ret, mul_ofM hs,
          Outcome.bind_ret], ?_⟩
      rw [← pow_succ, Finset.sum_range_succ _ (i + 1)]
      rfl)
  refine ⟨_, ?_, is_ofM' hs _⟩
  rw [exp, hr, hc, Dense.new_spec hs, Outcome.bind_ret, unit_ofM, Outcome.bind_ret, Int.toNat_natCast, ht, e,
    Outcome.bind_ret]

/-- **C147.**  `Sin(a, m)` is the sum of the terms of odd degree at most `m`. -/
theorem sin_spec (a : Dense K) (n : ℕ) (f : ℕ → ℕ → K) (ha : Is a n n f) (m : ℕ) :
    ∃ r, sin a m = .ret r ∧
      Is r n n (fnOf (∑ k ∈ (Finset.range (m + 1)).filter Odd,
        ((-1) ^ (k / 2) * (factorial k : K)⁻¹) • toMat n f ^ k)) := by
  obtain ⟨hs, rfl⟩ := is_toMat ha
  generalize toMat n f = A
  have hr : (ofM A).rows = n := rfl
  have hc : (ofM A).cols = n := rfl
  obtain ⟨t, ht, e⟩ := forRange_rule
    (fun i (s : St K) => s = ⟨ofM (∑ j ∈ Finset.range i,
        ((-1) ^ ((2 * j + 1) / 2) * (factorial (2 * j + 1) : K)⁻¹) • A ^ (2 * j + 1)),
      ofM ((-1 : K) ^ i • A ^ (2 * i + 1)), (factorial (2 * i + 1) : K)⟩) ((m + 1) / 2)
    ⟨ofM (0 : Matrix (Fin n) (Fin n) K), ofM A, 1⟩ (fun s i => sinStep (ofM A) s (1 + 2 * i))
    (by simp)
    (by
      rintro i _ _ rfl
      refine ⟨_, by
        simp only [sinStep]
        rw [divS_ofM hs _ (fact_ne _), Outcome.bind_ret, addAssign_ofM, Outcome.bind_ret, scale_ofM hs,
          Outcome.bind_ret, mul_ofM hs, Outcome.bind_ret, mul_ofM hs, Outcome.bind_ret], ?_⟩
      rw [Finset.sum_range_succ, show (2 * i + 1) / 2 = i by omega, add_comm 1 (2 * i), fact_two,
        smul_smul, mul_comm _ ((-1 : K) ^ i), smul_smul, ← pow_succ', Matrix.smul_mul, Matrix.smul_mul,
        ← pow_succ, ← pow_succ]
      rfl)
  refine ⟨_, ?_, is_ofM' hs _⟩
  rw [sin, hr, hc, Dense.new_spec hs, Outcome.bind_ret, zero_ofM, forStep, Int.toNat_natCast,
    show (m + 1 - 1 + (2 - 1)) / 2 = (m + 1) / 2 by omega, ht, e, Outcome.bind_ret, sum_odd]

/-- **C147.**  `Sinh(a, m)` is the sum of the terms of odd degree at most `m`, all with a plus sign. -/
theorem sinh_spec (a : Dense K) (n : ℕ) (f : ℕ → ℕ → K) (ha : Is a n n f) (m : ℕ) :
    ∃ r, sinh a m = .ret r ∧
      Is r n n (fnOf (∑ k ∈ (Finset.range (m + 1)).filter Odd, (factorial k : K)⁻¹ • toMat n f ^ k)) := by
  obtain ⟨hs, rfl⟩ := is_toMat ha
  generalize toMat n f = A
  have hr : (ofM A).rows = n := rfl
  have hc : (ofM A).cols = n := rfl
  obtain ⟨t, ht, e⟩ := forRange_rule
    (fun i (s : St K) => s = ⟨ofM (∑ j ∈ Finset.range i, (factorial (2 * j + 1) : K)⁻¹ • A ^ (2 * j + 1)),
      ofM (A ^ (2 * i + 1)), (factorial (2 * i + 1) : K)⟩) ((m + 1) / 2)
    ⟨ofM (0 : Matrix (Fin n) (Fin n) K), ofM A, 1⟩ (fun s i => sinhStep (ofM A) s (1 + 2 * i))
    (by simp)
    (by
      rintro i _ _ rfl
      refine ⟨_, by
        simp only [sinhStep]
        rw [divS_ofM hs _ (fact_ne _), Outcome.bind_ret, addAssign_ofM, Outcome.bind_ret, mul_ofM hs,
          Outcome.bind_ret, mul_ofM hs, Outcome.bind_ret], ?_⟩
      rw [Finset.sum_range_succ, add_comm 1 (2 * i), fact_two, ← pow_succ, ← pow_succ]
      rfl)
  refine ⟨_, ?_, is_ofM' hs _⟩
  rw [sinh, hr, hc, Dense.new_spec hs, Outcome.bind_ret, zero_ofM, forStep, Int.toNat_natCast,
    show (m + 1 - 1 + (2 - 1)) / 2 = (m + 1) / 2 by omega, ht, e, Outcome.bind_ret, sum_odd]

/-- **C147.**  `Cos(a, m)` is the sum of the terms of even degree at most `m + 1`: for an odd `m` one more term
than `Cosh(a, m)`. -/
theorem cos_spec (a : Dense K) (n : ℕ) (f : ℕ → ℕ → K) (ha : Is a n n f) (m : ℕ) :
    ∃ r, cos a m = .ret r ∧
      Is r n n (fnOf (∑ k ∈ (Finset.range (m + 2)).filter Even,
        ((-1) ^ (k / 2) * (factorial k : K)⁻¹) • toMat n f ^ k)) := by
  obtain ⟨hs, rfl⟩ := is_toMat ha
  generalize toMat n f = A
  have hr : (ofM A).rows = n := rfl
  have hc : (ofM A).cols = n := rfl
  obtain ⟨t, ht, e⟩ := forRange_rule
    (fun i (s : St K) => s = ⟨ofM (∑ j ∈ Finset.range (i + 1),
        ((-1) ^ ((2 * j) / 2) * (factorial (2 * j) : K)⁻¹) • A ^ (2 * j)),
      ofM ((-1 : K) ^ i • A ^ (2 * i)), (factorial (2 * i) : K)⟩) ((m + 1) / 2)
    ⟨ofM (1 : Matrix (Fin n) (Fin n) K), ofM (1 : Matrix (Fin n) (Fin n) K), 1⟩
    (fun s i => cosStep (ofM A) s (1 + 2 * i))
    (by simp)
    (by
      rintro i _ _ rfl
      have e : (factorial (2 * i) : K) * (((1 + 2 * i : ℕ) : K) * ((1 + 2 * i + 1 : ℕ) : K))
          = (factorial (2 * (i + 1)) : K) := by
        rw [show 2 * (i + 1) = 2 * i + 2 by ring, ← fact_two, show 1 + 2 * i = 2 * i + 1 by ring]
      refine ⟨_, by
        simp only [cosStep]
        rw [scale_ofM hs, Outcome.bind_ret, mul_ofM hs, Outcome.bind_ret, mul_ofM hs, Outcome.bind_ret, e,
          divS_ofM hs _ (fact_ne _), Outcome.bind_ret, addAssign_ofM, Outcome.bind_ret], ?_⟩
      rw [Finset.sum_range_succ _ (i + 1), show (2 * (i + 1)) / 2 = i + 1 by omega, smul_smul, ← pow_succ',
        Matrix.smul_mul, Matrix.smul_mul, ← pow_succ, ← pow_succ, smul_smul,
        mul_comm _ ((-1 : K) ^ (i + 1))]
      rfl)
  refine ⟨_, ?_, is_ofM' hs _⟩
  rw [cos, hr, hc, Dense.new_spec hs, Outcome.bind_ret, Outcome.bind_ret, unit_ofM, Outcome.bind_ret,
    Outcome.bind_ret, forStep, Int.toNat_natCast,
    show (m + 1 - 1 + (2 - 1)) / 2 = (m + 1) / 2 by omega, ht, e, Outcome.bind_ret, sum_even,
    show (m + 2 + 1) / 2 = (m + 1) / 2 + 1 by omega]

/-- **C147.**  `Cosh(a, m)` is the sum of the terms of even degree at most `m`, all with a plus sign. -/
theorem cosh_spec (a : Dense K) (n : ℕ) (f : ℕ → ℕ → K) (ha : Is a n n f) (m : ℕ) :
    ∃ r, cosh a m = .ret r ∧
      Is r n n (fnOf (∑ k ∈ (Finset.range (m + 1)).filter Even, (factorial k : K)⁻¹ • toMat n f ^ k)) := by
  obtain ⟨hs, rfl⟩ := is_toMat ha
  generalize toMat n f = A
  have hr : (ofM A).rows = n := rfl
  have hc : (ofM A).cols = n := rfl
  obtain ⟨t, ht, e⟩ := forRange_rule
    (fun i (s : St K) => s = ⟨ofM (∑ j ∈ Finset.range (i + 1), (factorial (2 * j) : K)⁻¹ • A ^ (2 * j)),
      ofM (A ^ (2 * i)), (factorial (2 * i) : K)⟩) (m / 2)
    ⟨ofM (1 : Matrix (Fin n) (Fin n) K), ofM (1 : Matrix (Fin n) (Fin n) K), 1⟩
    (fun s i => coshStep (ofM A) s (2 + 2 * i))
    (by simp)
    (by
      rintro i _ _ rfl
      have e : (factorial (2 * i) : K) * (((2 + 2 * i - 1 : ℕ) : K) * ((2 + 2 * i : ℕ) : K))
          = (factorial (2 * (i + 1)) : K) := by
        rw [show 2 * (i + 1) = 2 * i + 2 by ring, ← fact_two, show 2 + 2 * i - 1 = 2 * i + 1 by omega,
          show 2 + 2 * i = 2 * i + 2 by ring]
      refine ⟨_, by
        simp only [coshStep]
        rw [mul_ofM hs, Outcome.bind_ret, mul_ofM hs, Outcome.bind_ret, e,
          divS_ofM hs _ (fact_ne _), Outcome.bind_ret, addAssign_ofM, Outcome.bind_ret], ?_⟩
      rw [Finset.sum_range_succ _ (i + 1), ← pow_succ, ← pow_succ]
      rfl)
  refine ⟨_, ?_, is_ofM' hs _⟩
  rw [cosh, hr, hc, Dense.new_spec hs, Outcome.bind_ret, Outcome.bind_ret, unit_ofM, Outcome.bind_ret,
    Outcome.bind_ret, forStep, Int.toNat_natCast,
    show (m + 1 - 2 + (2 - 1)) / 2 = m / 2 by omega, ht, e, Outcome.bind_ret, sum_even,
    show (m + 1 + 1) / 2 = m / 2 + 1 by omega]

/-- **C147.**  `Exp = Sinh + Cosh`, for every matrix and every number of terms. -/
theorem exp_sinh_cosh (a : Dense K) (n : ℕ) (f : ℕ → ℕ → K) (ha : Is a n n f) (m : ℕ) :
    ∃ e s c, exp a m = .ret e ∧ sinh a m = .ret s ∧ cosh a m = .ret c ∧ s.add c = .ret e := by
  obtain ⟨e, he, ie⟩ := exp_spec a n f ha m
  obtain ⟨s, hs, is⟩ := sinh_spec a n f ha m
  obtain ⟨c, hc, ic⟩ := cosh_spec a n f ha m
  refine ⟨e, s, c, he, hs, hc, ?_⟩
  obtain ⟨h, rfl⟩ := Dense.is_unique.1 ie
  obtain ⟨_, rfl⟩ := Dense.is_unique.1 is
  obtain ⟨_, rfl⟩ := Dense.is_unique.1 ic
  refine (add_ofM h _ _).trans ?_
  rw [← Finset.sum_filter_add_sum_filter_not (Finset.range (m + 1)) Odd]
  simp only [Nat.not_odd_iff_even]
  rfl

/-- **C147.**  Of a nilpotent matrix the exponential is exact as soon as there are as many terms as the index
of nilpotency, and `Exp(-a)` is its inverse. -/
theorem exp_nilpotent [Algebra ℚ K] (a b : Dense K) (n : ℕ) (f : ℕ → ℕ → K) (ha : Is a n n f)
    (hb : Is b n n (fun i j => - f i j)) (m : ℕ) (hm : toMat n f ^ (m + 1) = 0) :
    ∃ r s, exp a m = .ret r ∧ exp b m = .ret s ∧ Is r n n (fnOf (IsNilpotent.exp (toMat n f))) ∧
      r.mul s = .ret (ofM (1 : Matrix (Fin n) (Fin n) K)) ∧
      s.mul r = .ret (ofM (1 : Matrix (Fin n) (Fin n) K)) := by
  obtain ⟨r, hr, ir⟩ := exp_spec a n f ha m
  obtain ⟨s, hs, is⟩ := exp_spec b n _ hb m
  have hneg : toMat n (fun i j => - f i j) = - toMat n f := by ext i j; simp [toMat]
  have key : ∀ B : Matrix (Fin n) (Fin n) K, B ^ (m + 1) = 0 →
      ∑ k ∈ Finset.range (m + 1), (factorial k : K)⁻¹ • B ^ k = IsNilpotent.exp B := by
    intro B hB
    rw [IsNilpotent.exp_eq_sum hB]
    refine Finset.sum_congr rfl fun k _ => ?_
    ext i j
    simp only [Matrix.smul_apply, smul_eq_mul, Algebra.smul_def]
    simp
  rw [hneg, key _ (by rw [neg_pow, hm, mul_zero])] at is
  rw [key _ hm] at ir
  refine ⟨r, s, hr, hs, ir, ?_⟩
  obtain ⟨h, rfl⟩ := Dense.is_unique.1 ir
  obtain ⟨_, rfl⟩ := Dense.is_unique.1 is
  have nil : IsNilpotent (toMat n f) := ⟨_, hm⟩
  constructor
  · refine (mul_ofM h _ _).trans ?_
    rw [IsNilpotent.exp_mul_exp_neg_self nil]
  · refine (mul_ofM h _ _).trans ?_
    rw [IsNilpotent.exp_neg_mul_exp_self nil]

end

/-- **C147.**  `Exp` converges to the exponential of the matrix: to any accuracy, all elements are that close
for all large numbers of terms. -/
theorem exp_converges (a : Dense ℝ) (n : ℕ) (f : ℕ → ℕ → ℝ) (ha : Is a n n f) (ε : ℝ) (hε : 0 < ε) :
    ∃ N, ∀ m : ℕ, N ≤ m → ∃ r g, exp a m = .ret r ∧ Is r n n g ∧
      ∀ i j : Fin n, |g i j - NormedSpace.exp (toMat n f) i j| < ε := by
  have hs : HasSum (fun k : ℕ => ((factorial k : ℝ)⁻¹) • toMat n f ^ k) (NormedSpace.exp (toMat n f)) := by
    open scoped Matrix.Norms.Operator in exact NormedSpace.exp_series_hasSum_exp' (𝕂 := ℝ) (toMat n f)
  have ht := hs.tendsto_sum_nat
  have h2 : ∀ᶠ N in Filter.atTop, ∀ i j : Fin n,
      |(∑ k ∈ Finset.range N, ((factorial k : ℝ)⁻¹) • toMat n f ^ k) i j - NormedSpace.exp (toMat n f) i j| < ε := by
    rw [Filter.eventually_all]
    intro i
    rw [Filter.eventually_all]
    intro j
    have h3 : Filter.Tendsto
        (fun N => (∑ k ∈ Finset.range N, ((factorial k : ℝ)⁻¹) • toMat n f ^ k) i j) Filter.atTop
        (nhds (NormedSpace.exp (toMat n f) i j)) :=
      tendsto_pi_nhds.1 (tendsto_pi_nhds.1 ht i) j
    have := (Metric.tendsto_nhds.1 h3) ε hε
    simpa [Real.dist_eq] using this
  obtain ⟨N, hN⟩ := Filter.eventually_atTop.1 h2
  refine ⟨N, fun m hm => ?_⟩
  obtain ⟨r, hr, ir⟩ := exp_spec a n f ha m
  refine ⟨r, _, hr, ir, fun i j => ?_⟩
  rw [fnOf_fin]
  exact hN (m + 1) (by omega) i j

section
variable {K : Type} [Field K]

/-- **C147.**  Of a matrix that is not square the exponential, cosine and hyperbolic cosine are refused. -/
theorem series_reject (a : Dense K) (r c : ℕ) (f : ℕ → ℕ → K) (ha : Is a r c f) (h : r ≠ c) (m : ℤ) :
    exp a m = .exn (.mml "MatrixDimensionError") ∧ cos a m = .exn (.mml "MatrixDimensionError") ∧
      cosh a m = .exn (.mml "MatrixDimensionError") ∧
      (1 ≤ m → sin a m = .exn (.mml "MatrixDimensionError") ∧ sinh a m = .exn (.mml "MatrixDimensionError")) := by
  obtain ⟨hs, rfl⟩ := Dense.is_unique.1 ha
  have hu : ∀ g : ℕ → ℕ → K, (ofFn r c g).makeUnit = .exn (.mml "MatrixDimensionError") := fun g => by
    rw [Dense.makeUnit, if_pos (by simpa using h)]
  have hmul : ∀ g g' : ℕ → ℕ → K, (ofFn r c g).mul (ofFn r c g') = .exn (.mml "MatrixDimensionError") := fun g g' => by
    rw [Dense.mul, if_pos (by simpa using fun e => h e.symm)]
  refine ⟨?_, ?_, ?_, fun hm => ?_⟩
  · rw [exp, Dense.ofFn_rows, Dense.ofFn_cols, Dense.new_spec hs, Outcome.bind_ret, hu, Outcome.bind_exn]
  · rw [cos, Dense.ofFn_rows, Dense.ofFn_cols, Dense.new_spec hs, Outcome.bind_ret, Outcome.bind_ret, hu,
      Outcome.bind_exn]
  · rw [cosh, Dense.ofFn_rows, Dense.ofFn_cols, Dense.new_spec hs, Outcome.bind_ret, Outcome.bind_ret, hu,
      Outcome.bind_exn]
  · obtain ⟨k, rfl⟩ : ∃ k : ℕ, m = (k : ℤ) + 1 := ⟨(m - 1).toNat, by omega⟩
    have hk : ((k : ℤ) + 1).toNat = k + 1 := by omega
    have first : ∀ (σ : Type) (n : ℕ) (s : σ) (b : σ → ℕ → Outcome σ) (e : Exn), b s 0 = .exn e →
        forRange (n + 1) s b = .exn e := by
      intro σ n s b e h0
      induction n with
      | zero => simp [forRange, h0]
      | succ n ih => rw [forRange, ih, Outcome.bind_exn]
    have cnt : (k + 1 + 1 - 1 + (2 - 1)) / 2 = k / 2 + 1 := by omega
    constructor
    · rw [sin, Dense.ofFn_rows, Dense.ofFn_cols, Dense.new_spec hs, Outcome.bind_ret, hk, forStep, cnt,
        first _ _ _ _ (.mml "MatrixDimensionError"), Outcome.bind_exn]
      simp only [sinStep, divS, if_neg one_ne_zero, Dense.mapData_ofFn hs, Outcome.bind_ret, Dense.addAssign,
        Dense.zipDataInPlace_ofFn, Dense.scale, hmul, Outcome.bind_exn]
    · rw [sinh, Dense.ofFn_rows, Dense.ofFn_cols, Dense.new_spec hs, Outcome.bind_ret, hk, forStep, cnt,
        first _ _ _ _ (.mml "MatrixDimensionError"), Outcome.bind_exn]
      simp only [sinhStep, divS, if_neg one_ne_zero, Dense.mapData_ofFn hs, Outcome.bind_ret, Dense.addAssign,
        Dense.zipDataInPlace_ofFn, hmul, Outcome.bind_exn]

/-! ## Commutators, symmetric and antisymmetric parts -/

/-- **C147.**  Commutator and anticommutator; the commutator has trace zero and changes sign when the
arguments are exchanged. -/
theorem commutator_spec (a b : Dense K) (n : ℕ) (f g : ℕ → ℕ → K) (ha : Is a n n f) (hb : Is b n n g) :
    ∃ r r' s, commutator a b = .ret r ∧ commutator b a = .ret r' ∧ antiCommutator a b = .ret s ∧
      Is r n n (fnOf (toMat n f * toMat n g - toMat n g * toMat n f)) ∧
      Is s n n (fnOf (toMat n f * toMat n g + toMat n g * toMat n f)) ∧
      antiCommutator b a = .ret s ∧ r.neg = .ret r' ∧
      (toMat n f * toMat n g - toMat n g * toMat n f).trace = 0 := by
  obtain ⟨hs, rfl⟩ := is_toMat ha
  obtain ⟨_, rfl⟩ := is_toMat hb
  generalize toMat n f = A
  generalize toMat n g = B
  have hc : ∀ A B : Matrix (Fin n) (Fin n) K, commutator (ofM A) (ofM B) = .ret (ofM (A * B - B * A)) := by
    intro A B
    simp only [commutator, mul_ofM hs, Outcome.bind_ret, sub_ofM hs]
  have hcc : ∀ A B : Matrix (Fin n) (Fin n) K, antiCommutator (ofM A) (ofM B) = .ret (ofM (A * B + B * A)) := by
    intro A B
    simp only [antiCommutator, mul_ofM hs, Outcome.bind_ret, add_ofM hs]
  refine ⟨_, _, _, hc A B, hc B A, hcc A B, is_ofM' hs _, is_ofM' hs _, ?_, ?_, ?_⟩
  · rw [hcc, add_comm]
  · rw [Dense.neg, map_ofM hs]
    congr 2
    ext i j
    simp
  · rw [Matrix.trace_sub, Matrix.trace_mul_comm, sub_self]

/-- **C147.**  The two parts add up to the matrix, one is symmetric and the other antisymmetric; they are the
only such pair.  A matrix that is not square is refused. -/
theorem symAntisym_spec [CharZero K] (a : Dense K) (r c : ℕ) (f : ℕ → ℕ → K) (ha : Is a r c f) :
    (r = c → ∃ s t p q, symAntisym a = .ret (s, t) ∧ Is s r r p ∧ Is t r r q ∧
      (∀ i < r, ∀ j < r, p i j = p j i ∧ q i j = - q j i ∧ p i j + q i j = f i j) ∧
      ∀ p' q' : ℕ → ℕ → K, (∀ i < r, ∀ j < r, p' i j = p' j i ∧ q' i j = - q' j i ∧ p' i j + q' i j = f i j) →
        ∀ i < r, ∀ j < r, p' i j = p i j ∧ q' i j = q i j) ∧
    (r ≠ c → symAntisym a = .exn (.mml "MatrixDimensionError")) := by
  obtain ⟨hs, rfl⟩ := Dense.is_unique.1 ha
  refine ⟨fun h => ?_, fun h => ?_⟩
  · subst h
    have h2 : (2 : K) ≠ 0 := two_ne_zero
    have h05 : (0.5 : K) = 1 / 2 := by norm_num
    refine ⟨_, _, fun i j => (f i j + f j i) * 0.5, fun i j => (f i j - f j i) * 0.5, ?_,
      Dense.is_ofFn hs _, Dense.is_ofFn hs _, ?_, ?_⟩
    · rw [symAntisym, if_neg (by simp), Dense.transpose_ofFn hs, Outcome.bind_ret, Dense.add,
        Dense.zipData_ofFn hs, Outcome.bind_ret, Dense.scale, Dense.mapData_ofFn hs, Outcome.bind_ret,
        Dense.sub, Dense.zipData_ofFn hs, Outcome.bind_ret, Dense.scale, Dense.mapData_ofFn hs,
        Outcome.bind_ret]
    · intro i _ j _
      rw [h05]
      refine ⟨by ring, by ring, by ring⟩
    · intro p' q' h i hi j hj
      obtain ⟨a1, a2, a3⟩ := h i hi j hj
      obtain ⟨b1, b2, b3⟩ := h j hj i hi
      rw [h05]
      constructor
      · simp only [← a3, ← b3, ← a1, b2]; ring
      · simp only [← a3, ← b3, ← a1, b2]; ring
  · rw [symAntisym, if_pos (by simpa using h)]

/-- **C147.**  `IsOrthogonal` tests the product with the transpose against the unit matrix. -/
theorem isOrthogonal_spec [LinearOrder K] (a : Dense K) (r c : ℕ) (f : ℕ → ℕ → K) (ha : Is a r c f) (eps : K) :
    (r ≠ c → isOrthogonal a eps = .exn (.mml "MatrixDimensionError")) ∧
    (r = c → ∃ b, isOrthogonal a eps = .ret b ∧ (b = true ↔ ∀ i j : Fin r,
      |(toMat r f * (toMat r f).transpose - 1) i j| ≤ eps)) := by
  refine ⟨fun h => ?_, fun h => ?_⟩
  · obtain ⟨hs, rfl⟩ := Dense.is_unique.1 ha
    rw [isOrthogonal, if_pos (by simpa using h)]
  · subst h
    obtain ⟨hs, rfl⟩ := is_toMat ha
    obtain ⟨b, hb, hP⟩ := (Dense.predicates_spec _ r r _ (is_ofM' hs (toMat r f * (toMat r f).transpose)) eps).1
    refine ⟨b, ?_, hP.trans ?_⟩
    · rw [isOrthogonal, if_neg (by simp [ofM]), transpose_ofM hs, Outcome.bind_ret, mul_ofM hs, Outcome.bind_ret, hb]
    · constructor
      · intro h i j
        have := h.2 i i.2 j j.2
        rw [fnOf_fin] at this
        rw [Matrix.sub_apply, Matrix.one_apply]
        simpa [Fin.ext_iff] using this
      · refine fun h => ⟨rfl, fun i hi j hj => ?_⟩
        have := h ⟨i, hi⟩ ⟨j, hj⟩
        rw [Matrix.sub_apply, Matrix.one_apply] at this
        rw [fnOf_lt _ hi hj]
        simpa [Fin.ext_iff] using this

end

/-! ## Complex matrices -/

theorem fill_spec {K : Type} [Zero K] {r c : ℕ} (f : ℕ → ℕ → K) (F : ℕ → ℕ → K)
    (body : ℕ → Dense K → ℕ → Outcome (Dense K))
    (hb : ∀ i < r, ∀ j < c, ∀ m : Dense K, body i m j = m.set i j (F i j)) :
    forRange r (ofFn r c f) (fun m i => forRange c m (body i)) = .ret (ofFn r c F) := by
  rw [Dense.forRange_row r f F le_rfl]
  · congr 1
    exact Dense.ofFn_congr fun i hi j _ => by rw [if_pos hi]
  · intro i hi g _
    have := Dense.forFromTo_cols 0 c i g (F i) hi le_rfl (body i) (fun j _ hj m => hb i hi j hj m)
    simp only [forFromTo, Nat.sub_zero, Nat.zero_add] at this
    rw [this]
    congr 1
    refine Dense.ofFn_congr fun p _ q hq => ?_
    by_cases hp : p = i
    · rw [if_pos hp, if_pos ⟨Nat.zero_le _, hq⟩, if_pos hp]
    · rw [if_neg hp, if_neg hp]

theorem conjTranspose_ofFn {r c : ℕ} (h : Shape r c) (f : ℕ → ℕ → ℂ) :
    conjTranspose (ofFn r c f) = .ret (ofFn c r (fun i j => starRingEnd ℂ (f j i))) := by
  rw [conjTranspose, Dense.ofFn_rows, Dense.ofFn_cols, Dense.new_spec h.symm, Outcome.bind_ret]
  obtain ⟨t, ht, rfl⟩ := forRange_rule
    (fun k (m : Dense ℂ) => m = ofFn c r (fun p q => if q < k then starRingEnd ℂ (f q p) else 0)) r
    (ofFn c r (fun _ _ => (0 : ℂ)))
    (fun m i => forRange c m (fun m j => do
      let x ← (ofFn r c f).get i j
      m.set j i (starRingEnd ℂ x)))
    (by simp)
    (by
      rintro i _ hi rfl
      obtain ⟨t, ht, rfl⟩ := forRange_rule
        (fun k (m : Dense ℂ) => m = ofFn c r (fun p q => if q < i ∨ (q = i ∧ p < k) then starRingEnd ℂ (f q p) else 0)) c
        (ofFn c r (fun p q => if q < i then starRingEnd ℂ (f q p) else 0))
        (fun m j => do
          let x ← (ofFn r c f).get i j
          m.set j i (starRingEnd ℂ x))
        (by simp)
        (by
          rintro j _ hj rfl
          refine ⟨_, by rw [Dense.get_ofFn _ hi hj, Outcome.bind_ret, Dense.set_ofFn _ hj hi], ?_⟩
          refine Dense.ofFn_congr fun p _ q _ => ?_
          by_cases h1 : p = j ∧ q = i
          · obtain ⟨rfl, rfl⟩ := h1
            simp
          · rw [if_neg h1]
            by_cases h2 : q < i ∨ q = i ∧ p < j
            · rw [if_pos h2, if_pos (by omega)]
            · rw [if_neg h2, if_neg (by omega)])
      refine ⟨_, ht, ?_⟩
      refine Dense.ofFn_congr fun p hp q _ => ?_
      by_cases h1 : q < i + 1
      · rw [if_pos h1, if_pos (by omega)]
      · rw [if_neg h1, if_neg (by omega)])
  rw [ht]
  congr 1
  exact Dense.ofFn_congr fun p _ q hq => by rw [if_pos hq]

/-- **C147.**  Real part, imaginary part and conjugate transpose, element by element; the complex matrix of a
real matrix has it as its real part and zero as its imaginary part. -/
theorem complex_parts (a : Dense ℂ) (r c : ℕ) (f : ℕ → ℕ → ℂ) (ha : Is a r c f) :
    (∃ x, realPart a = .ret x ∧ Is x r c (fun i j => (f i j).re)) ∧
    (∃ x, imagPart a = .ret x ∧ Is x r c (fun i j => (f i j).im)) ∧
    (∃ x, conjTranspose a = .ret x ∧ Is x c r (fun i j => starRingEnd ℂ (f j i)) ∧ conjTranspose x = .ret a) := by
  obtain ⟨hs, rfl⟩ := Dense.is_unique.1 ha
  refine ⟨⟨_, ?_, Dense.is_ofFn hs _⟩, ⟨_, ?_, Dense.is_ofFn hs _⟩, ⟨_, conjTranspose_ofFn hs f,
    Dense.is_ofFn hs.symm _, ?_⟩⟩
  · rw [realPart, Dense.ofFn_rows, Dense.ofFn_cols, Dense.new_spec hs, Outcome.bind_ret, Dense.ofFn_rows, Dense.ofFn_cols]
    exact fill_spec _ _ _ (fun i hi j hj m => by rw [Dense.get_ofFn _ hi hj, Outcome.bind_ret])
  · rw [imagPart, Dense.ofFn_rows, Dense.ofFn_cols, Dense.new_spec hs, Outcome.bind_ret, Dense.ofFn_rows, Dense.ofFn_cols]
    exact fill_spec _ _ _ (fun i hi j hj m => by rw [Dense.get_ofFn _ hi hj, Outcome.bind_ret])
  · rw [conjTranspose_ofFn hs.symm]
    simp

/-- **C147.**  `CmplxMatFromRealMat` and `GetRealPart` are inverse; the result passes `IsComplexMatReal`. -/
theorem ofReal_spec (a : Dense ℝ) (r c : ℕ) (f : ℕ → ℕ → ℝ) (ha : Is a r c f) :
    ∃ x, ofReal a = .ret x ∧ Is x r c (fun i j => (f i j : ℂ)) ∧ realPart x = .ret a := by
  obtain ⟨hs, rfl⟩ := Dense.is_unique.1 ha
  have e : ofReal (ofFn r c f) = .ret (ofFn r c (fun i j => (f i j : ℂ))) := by
    rw [ofReal, Dense.ofFn_rows, Dense.ofFn_cols, Dense.new_spec hs, Outcome.bind_ret]
    exact fill_spec _ _ _ (fun i hi j hj m => by rw [Dense.get_ofFn _ hi hj, Outcome.bind_ret]; rfl)
  refine ⟨_, e, Dense.is_ofFn hs _, ?_⟩
  rw [realPart, Dense.ofFn_rows, Dense.ofFn_cols, Dense.new_spec hs, Outcome.bind_ret, Dense.ofFn_rows, Dense.ofFn_cols]
  exact fill_spec _ _ _ (fun i hi j hj m => by rw [Dense.get_ofFn _ hi hj, Outcome.bind_ret, Complex.ofReal_re])

/-- **C147.**  `IsComplexMatReal` decides whether all imaginary parts are zero. -/
theorem isReal_spec (a : Dense ℂ) (r c : ℕ) (f : ℕ → ℕ → ℂ) (ha : Is a r c f) :
    ∃ b, isReal a = .ret b ∧ (b = true ↔ ∀ i < r, ∀ j < c, (f i j).im = 0) := by
  classical
  obtain ⟨hs, rfl⟩ := Dense.is_unique.1 ha
  obtain ⟨b, hb, hP⟩ := Dense.allEntries_spec r (fun _ => 0) (fun _ => c) (fun i j => do
    let x ← (ofFn r c f).get i j
    .ret (decide (¬ x.im ≠ 0))) (fun i j => (f i j).im = 0)
    (by
      intro i hi j _ hj
      rw [Dense.get_ofFn f hi hj, Outcome.bind_ret]
      simp)
  refine ⟨b, ?_, hP.trans (by simp)⟩
  rw [isReal, Dense.ofFn_rows, Dense.ofFn_cols, ← hb]

/-- **C147.**  What `IsHermitian` decides: conjugate symmetry off the diagonal.  Every Hermitian matrix passes;
one that passes is Hermitian exactly if its diagonal is real, which is not tested. -/
theorem isHermitian_partial (a : Dense ℂ) (r c : ℕ) (f : ℕ → ℕ → ℂ) (ha : Is a r c f) :
    (r ≠ c → isHermitian a = .exn (.mml "MatrixDimensionError")) ∧
    (r = c → ∃ b, isHermitian a = .ret b ∧
      (b = true ↔ ∀ i < r, ∀ j < r, i ≠ j → f i j = starRingEnd ℂ (f j i)) ∧
      ((toMat r f).IsHermitian ↔ b = true ∧ ∀ i < r, (f i i).im = 0)) := by
  classical
  obtain ⟨hs, rfl⟩ := Dense.is_unique.1 ha
  refine ⟨fun h => by rw [isHermitian, if_pos (by simpa using h)], fun h => ?_⟩
  subst h
  obtain ⟨b, hb, hP⟩ := Dense.allEntries_spec r (fun i => i + 1) (fun _ => r) (fun i j => do
    let x ← (ofFn r r f).get i j
    let y ← (ofFn r r f).get j i
    .ret (decide (¬ x ≠ starRingEnd ℂ y))) (fun i j => f i j = starRingEnd ℂ (f j i))
    (by
      intro i hi j _ hj
      rw [Dense.get_ofFn f hi hj, Outcome.bind_ret, Dense.get_ofFn f hj hi, Outcome.bind_ret]
      simp)
  have key : b = true ↔ ∀ i < r, ∀ j < r, i ≠ j → f i j = starRingEnd ℂ (f j i) := by
    rw [hP]
    constructor
    · intro h i hi j hj hij
      rcases Nat.lt_or_gt_of_ne hij with h1 | h1
      · exact h i hi j h1 hj
      · rw [h j hj i h1 hi, Complex.conj_conj]
    · intro h i hi j h1 hj
      exact h i hi j hj (by omega)
  refine ⟨b, ?_, key, ?_⟩
  · rw [isHermitian, if_neg (by simp), Dense.ofFn_rows, Dense.ofFn_cols, ← hb]
  · rw [key]
    constructor
    · intro h
      have e : ∀ i j : Fin r, starRingEnd ℂ (f j i) = f i j := fun i j => by
        have := h.apply i j
        simpa [toMat] using this
      exact ⟨fun i hi j hj _ => (e ⟨i, hi⟩ ⟨j, hj⟩).symm,
        fun i hi => Complex.conj_eq_iff_im.1 (e ⟨i, hi⟩ ⟨i, hi⟩)⟩
    · rintro ⟨h1, h2⟩
      refine Matrix.IsHermitian.ext fun i j => ?_
      by_cases hij : i = j
      · subst hij
        simpa [toMat] using Complex.conj_eq_iff_im.2 (h2 i i.2)
      · have := h1 i i.2 j j.2 (fun e => hij (Fin.ext e))
        simpa [toMat] using this.symm

/-- **C147.**  Counterexample: every diagonal matrix passes `IsHermitian`; the 1 by 1 matrix `i` is not
Hermitian. -/
theorem isHermitian_false_positive :
    isHermitian (ofFn 1 1 (fun _ _ => Complex.I)) = .ret true ∧
      ¬ (toMat 1 (fun _ _ => Complex.I)).IsHermitian := by
  have hs : Shape 1 1 := Or.inr (by omega)
  obtain ⟨b, hb, h1, h2⟩ := (isHermitian_partial _ 1 1 _ (Dense.is_ofFn hs (fun _ _ => Complex.I))).2 rfl
  refine ⟨?_, fun h => ?_⟩
  · rw [hb, h1.2 (fun i hi j hj hij => by omega)]
  · have := (h2.1 h).2 0 (by omega)
    simp at this

/-- **C147.**  `IsUnitary` tests the product with the conjugate transpose against the unit matrix; with a
tolerance of zero it decides exactly whether the matrix is unitary. -/
theorem isUnitary_spec (a : Dense ℂ) (r c : ℕ) (f : ℕ → ℕ → ℂ) (ha : Is a r c f) (eps : ℝ) :
    (r ≠ c → isUnitary a eps = .exn (.mml "MatrixDimensionError")) ∧
    (r = c → ∃ b, isUnitary a eps = .ret b ∧
      (b = true ↔ ∀ i j : Fin r, ‖(toMat r f * (toMat r f).conjTranspose - 1) i j‖ ≤ eps) ∧
      (eps = 0 → (b = true ↔ toMat r f ∈ Matrix.unitaryGroup (Fin r) ℂ))) := by
  classical
  obtain ⟨hs, rfl⟩ := Dense.is_unique.1 ha
  refine ⟨fun h => by rw [isUnitary, if_pos (by simpa using h)], fun h => ?_⟩
  subst h
  have hp : ∀ i j : Fin r, (toMat r f * (toMat r f).conjTranspose) i j
      = ∑ t ∈ Finset.range r, f i t * starRingEnd ℂ (f j t) := fun i j => by
    rw [Matrix.mul_apply, Finset.sum_range]
    rfl
  obtain ⟨b, hb, hP⟩ := Dense.allEntries_spec r (fun _ => 0) (fun _ => r) (fun i j => do
    let x ← (ofFn r r (fun i j => ∑ t ∈ Finset.range r, f i t * starRingEnd ℂ (f j t))).get i j
    if i = j then .ret (decide (¬ ‖x - 1‖ > eps)) else .ret (decide (¬ ‖x‖ > eps)))
    (fun i j => ‖∑ t ∈ Finset.range r, f i t * starRingEnd ℂ (f j t) - (if i = j then 1 else 0)‖ ≤ eps)
    (by
      intro i hi j _ hj
      rw [Dense.get_ofFn _ hi hj, Outcome.bind_ret]
      by_cases h : i = j
      · rw [if_pos h, if_pos h]; simp
      · rw [if_neg h, if_neg h]; simp)
  have key : b = true ↔ ∀ i j : Fin r, ‖(toMat r f * (toMat r f).conjTranspose - 1) i j‖ ≤ eps := by
    rw [hP]
    constructor
    · intro h i j
      have := h i i.2 j (Nat.zero_le _) j.2
      rw [Matrix.sub_apply, hp, Matrix.one_apply]
      simpa [Fin.ext_iff] using this
    · intro h i hi j _ hj
      have := h ⟨i, hi⟩ ⟨j, hj⟩
      rw [Matrix.sub_apply, hp, Matrix.one_apply] at this
      simpa [Fin.ext_iff] using this
  refine ⟨b, ?_, key, ?_⟩
  · rw [isUnitary, if_neg (by simp), conjTranspose_ofFn hs, Outcome.bind_ret, Dense.mul_ofFn hs, Outcome.bind_ret,
      isIdentityC, if_neg (by simp), Dense.ofFn_rows, Dense.ofFn_cols, ← hb]
  · rintro rfl
    rw [key, Matrix.mem_unitaryGroup_iff, Matrix.star_eq_conjTranspose]
    constructor
    · intro h
      refine sub_eq_zero.1 ?_
      ext i j
      exact norm_le_zero_iff.1 (h i j)
    · intro h i j
      rw [h, sub_self]
      simp

/-! ## Examples -/

/-- The hypotheses are met by a nilpotent 2 by 2 matrix. -/
example : Is (ofFn 2 2 (fun i j => if i = 0 ∧ j = 1 then (3 : ℚ) else 0)) 2 2
      (fun i j => if i = 0 ∧ j = 1 then (3 : ℚ) else 0) ∧
    toMat 2 (fun i j => if i = 0 ∧ j = 1 then (3 : ℚ) else 0) ^ (1 + 1) = 0 := by
  refine ⟨Dense.is_ofFn (Or.inr (by omega)) _, ?_⟩
  ext i j
  fin_cases i <;> fin_cases j <;> simp [toMat, pow_two, Matrix.mul_apply, Fin.sum_univ_two]

/-- A matrix that is not square, for the refusals. -/
example : Is (ofFn 2 3 (fun i j => ((i + j : ℕ) : ℚ))) 2 3 (fun i j => ((i + j : ℕ) : ℚ)) :=
  Dense.is_ofFn (Or.inr (by omega)) _

end Verif.Mat.Ops
