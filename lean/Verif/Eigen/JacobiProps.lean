import Verif.Eigen.JacobiLemmas
import Mathlib.Analysis.Matrix.Spectrum
import Mathlib.Tactic

/-!
# C110: the Jacobi eigenvalue solver

The specification speaks about the matrix `A` (its element functions), the returned eigenvalues, eigenvectors and residual only.
-/

set_option autoImplicit false

namespace Verif.Eigen

open Verif.Mat Verif.LinAlg Finset

/-- The norm of the part above the diagonal. -/
noncomputable def offDiag (n : ℕ) (A : ℕ → ℕ → ℝ) : ℝ := Real.sqrt (∑ i ∈ range n, ∑ j ∈ range n, if i < j then A i j ^ 2 else 0)

/-- What an answer with eigenvalues `lam`, eigenvectors (columns of `W`) and residual `r` promises about the symmetric matrix `A`. -/
structure Spectral (n : ℕ) (A : ℕ → ℕ → ℝ) (lam : ℕ → ℝ) (W : ℕ → ℕ → ℝ) (r : ℝ) : Prop where
  /-- the eigenvalues ascend -/
  ascending : ∀ i j, i < j → j < n → lam i ≤ lam j
  /-- the eigenvectors are orthonormal -/
  ortho : ∀ j < n, ∀ k < n, ∑ i ∈ range n, W i j * W i k = if j = k then 1 else 0
  /-- the residual says how far the pairs are from eigenpairs -/
  pairs : ∑ k ∈ range n, ∑ i ∈ range n, (∑ j ∈ range n, A i j * W j k - lam k * W i k) ^ 2 = 2 * r ^ 2
  /-- the sum of the eigenvalues is the trace -/
  trace : ∑ k ∈ range n, lam k = ∑ i ∈ range n, A i i
  /-- the squares of the eigenvalues and of the residual are the squares of the elements -/
  frobenius : ∑ k ∈ range n, lam k ^ 2 + 2 * r ^ 2 = ∑ i ∈ range n, ∑ j ∈ range n, A i j ^ 2

section
variable {n : ℕ} {A D V : ℕ → ℕ → ℝ}

theorem Inv.cols (h : Inv n A D V) : ∀ j < n, ∀ k < n, ∑ i ∈ range n, V i j * V i k = if j = k then 1 else 0 :=
  SVD.rows_ortho (V := fun i j => V j i) h.rows

theorem Inv.mul_col (h : Inv n A D V) {i k : ℕ} (hi : i < n) (hk : k < n) :
    ∑ j ∈ range n, A i j * V j k = ∑ l ∈ range n, D l k * V i l := by
  have e : ∀ j ∈ range n, A i j * V j k = ∑ a ∈ range n, ∑ l ∈ range n, V i a * D a l * (V j l * V j k) := fun j hj => by
    rw [h.prod i hi j (mem_range.1 hj), Finset.sum_mul]
    refine Finset.sum_congr rfl fun a _ => ?_
    rw [Finset.mul_sum, Finset.sum_mul]
    exact Finset.sum_congr rfl fun l _ => by ring
  rw [Finset.sum_congr rfl e, Finset.sum_comm]
  refine Finset.sum_congr rfl fun a ha => ?_
  rw [Finset.sum_comm]
  have e2 : ∀ l ∈ range n, ∑ j ∈ range n, V i a * D a l * (V j l * V j k) = if l = k then V i a * D a l else 0 := fun l hl => by
    rw [← Finset.mul_sum, h.cols l (mem_range.1 hl) k hk]
    split_ifs <;> ring
  rw [Finset.sum_congr rfl e2, Finset.sum_ite_eq', if_pos (mem_range.2 hk), mul_comm]

theorem Inv.pair (h : Inv n A D V) {k : ℕ} (hk : k < n) :
    ∑ i ∈ range n, (∑ j ∈ range n, A i j * V j k - D k k * V i k) ^ 2 = ∑ l ∈ range n, if k = l then 0 else D k l ^ 2 := by
  have e : ∀ i ∈ range n, (∑ j ∈ range n, A i j * V j k - D k k * V i k) ^ 2 =
      (∑ l ∈ range n, V i l * (if k = l then 0 else D k l)) ^ 2 := fun i hi => by
    have hi := mem_range.1 hi
    congr 1
    rw [h.mul_col hi hk]
    have e1 : ∀ l ∈ range n, V i l * (if k = l then 0 else D k l) = D l k * V i l - if k = l then D k k * V i k else 0 := fun l hl => by
      by_cases hkl : k = l
      · rw [if_pos hkl, if_pos hkl, ← hkl]; ring
      · rw [if_neg hkl, if_neg hkl, h.symm k hk l (mem_range.1 hl)]; ring
    rw [Finset.sum_congr rfl e1, Finset.sum_sub_distrib, Finset.sum_ite_eq, if_pos (mem_range.2 hk)]
  rw [Finset.sum_congr rfl e, SVD.norm_comb h.cols]
  refine Finset.sum_congr rfl fun l _ => ?_
  split_ifs <;> ring

theorem Inv.trace (h : Inv n A D V) : ∑ k ∈ range n, D k k = ∑ i ∈ range n, A i i := by
  have e : ∀ i ∈ range n, A i i = ∑ k ∈ range n, ∑ l ∈ range n, D k l * (V i k * V i l) := fun i hi => by
    rw [h.prod i (mem_range.1 hi) i (mem_range.1 hi)]
    refine Finset.sum_congr rfl fun k _ => ?_
    rw [Finset.mul_sum]
    exact Finset.sum_congr rfl fun l _ => by ring
  rw [Finset.sum_congr rfl e, Finset.sum_comm]
  refine Finset.sum_congr rfl fun k hk => ?_
  rw [Finset.sum_comm]
  have e2 : ∀ l ∈ range n, ∑ i ∈ range n, D k l * (V i k * V i l) = if k = l then D k k else 0 := fun l hl => by
    rw [← Finset.mul_sum, h.cols k (mem_range.1 hk) l (mem_range.1 hl)]
    by_cases hkl : k = l
    · rw [if_pos hkl, if_pos hkl, ← hkl]; ring
    · rw [if_neg hkl, if_neg hkl]; ring
  rw [Finset.sum_congr rfl e2, Finset.sum_ite_eq, if_pos hk]

theorem Inv.frobenius (h : Inv n A D V) : ∑ i ∈ range n, ∑ j ∈ range n, A i j ^ 2 = ∑ i ∈ range n, ∑ j ∈ range n, D i j * D i j := by
  have e1 : ∀ i ∈ range n, ∑ j ∈ range n, A i j ^ 2 = ∑ l ∈ range n, (∑ k ∈ range n, V i k * D k l) ^ 2 := fun i hi => by
    rw [← SVD.norm_comb h.cols (fun l => ∑ k ∈ range n, V i k * D k l)]
    refine Finset.sum_congr rfl fun j hj => ?_
    rw [h.prod i (mem_range.1 hi) j (mem_range.1 hj)]
    congr 1
    have : ∀ l ∈ range n, V j l * ∑ k ∈ range n, V i k * D k l = ∑ k ∈ range n, V i k * (D k l * V j l) := fun l _ => by
      rw [Finset.mul_sum]
      exact Finset.sum_congr rfl fun k _ => by ring
    rw [Finset.sum_congr rfl this, Finset.sum_comm]
    exact Finset.sum_congr rfl fun k _ => by rw [Finset.mul_sum]
  rw [Finset.sum_congr rfl e1, Finset.sum_comm]
  conv_rhs => rw [Finset.sum_comm]
  refine Finset.sum_congr rfl fun l _ => ?_
  rw [SVD.norm_comb h.cols]
  exact Finset.sum_congr rfl fun k _ => by ring

theorem sum_perm {n : ℕ} (π : Equiv.Perm ℕ) (hπ : ∀ k, π k < n ↔ k < n) (f : ℕ → ℝ) :
    ∑ k ∈ range n, f (π k) = ∑ k ∈ range n, f k := by
  refine Finset.sum_nbij' (fun k => π k) (fun k => π.symm k) (fun k hk => ?_) (fun k hk => ?_) (fun k _ => ?_) (fun k _ => ?_) fun k _ => rfl
  · exact mem_range.2 ((hπ k).2 (mem_range.1 hk))
  · rw [mem_range, ← hπ, Equiv.apply_symm_apply]; exact mem_range.1 hk
  · exact Equiv.symm_apply_apply π k
  · exact Equiv.apply_symm_apply π k

theorem Inv.spectral (h : Inv n A D V) (π : Equiv.Perm ℕ) (hπ : ∀ k, π k < n ↔ k < n) (hs : ∀ i j, i < j → j < n → D (π i) (π i) ≤ D (π j) (π j)) :
    Spectral n A (fun k => D (π k) (π k)) (fun i k => V i (π k)) (Real.sqrt (upper n D)) := by
  have hr : Real.sqrt (upper n D) ^ 2 = upper n D := Real.sq_sqrt (upper_nonneg n D)
  refine ⟨hs, fun j hj k hk => ?_, ?_, ?_, ?_⟩
  · rw [h.cols _ ((hπ j).2 hj) _ ((hπ k).2 hk)]
    simp only [π.injective.eq_iff]
  · rw [hr, sum_perm π hπ (fun k => ∑ i ∈ range n, (∑ j ∈ range n, A i j * V j k - D k k * V i k) ^ 2), upper_off h.symm]
    exact Finset.sum_congr rfl fun k hk => h.pair (mem_range.1 hk)
  · rw [sum_perm π hπ (fun k => D k k), h.trace]
  · rw [sum_perm π hπ (fun k => D k k ^ 2), hr, upper_off h.symm, off_eq, h.frobenius]
    ring

end

theorem copyUpper_spec {n : ℕ} {a : Sym ℝ} {f : ℕ → ℕ → ℝ} (h : a.Is n f) (hn : n < 10000) :
    copyUpper n a = .ret (Dense.ofFn n n f) := by
  rw [copyUpper]
  obtain ⟨d, hd, hI⟩ := Sym.fill_dense (K := ℝ) (Sym.shape_of_dim (by omega : n ≤ 10000)) f (fun d i j => do
    let x ← if i ≤ j then a.get i j else a.get j i
    d.set i j x) (fun i hi j hj m => by
      have e : (if i ≤ j then a.get i j else a.get j i) = .ret (f i j) := by
        by_cases hij : i ≤ j
        · rw [if_pos hij, h.2.2 i hi j hj]
        · rw [if_neg hij, ← h.2.2 i hi j hj]
          simp only [Sym.get]
          congr 1
          exact (Sym.lin_inj _ _ _ _).2 (by omega)
      change (if i ≤ j then a.get i j >>= fun x => m.set i j x else a.get j i >>= fun x => m.set i j x) = _
      by_cases hij : i ≤ j
      · rw [if_pos hij] at e ⊢
        rw [e, Outcome.bind_ret]
      · rw [if_neg hij] at e ⊢
        rw [e, Outcome.bind_ret])
  exact hd.trans (by rw [(Dense.is_unique.1 hI).2])

theorem diagonal_eq (n : ℕ) (D : ℕ → ℕ → ℝ) : diagonal n (Dense.ofFn n n D) = .ret (tab n fun k => D k k) := by
  rw [diagonal, replicate_eq_tab, forRange_fill n n le_rfl _ (fun k => D k k)]
  · congr 1
    exact tab_congr fun k hk => by rw [if_pos hk]
  · intro i hi e
    rw [Dense.get_ofFn _ hi hi, Outcome.bind_ret]

theorem symm_of_is {n : ℕ} {a : Sym ℝ} {A : ℕ → ℕ → ℝ} (h : a.Is n A) : ∀ i < n, ∀ j < n, A i j = A j i := by
  intro i hi j hj
  have h1 := h.2.2 i hi j hj
  have h2 := h.2.2 j hj i hi
  have : a.get i j = a.get j i := by
    simp only [Sym.get]
    congr 1
    exact (Sym.lin_inj _ _ _ _).2 (by omega)
  rw [h1, h2] at this
  exact Outcome.ret.inj this

theorem inv_start {n : ℕ} {a : Sym ℝ} {A : ℕ → ℕ → ℝ} (h : a.Is n A) : Inv n A A (fun p q => if p = q then 1 else 0) := by
  refine ⟨symm_of_is h, fun i hi j hj => ?_, fun i hi j hj => ?_⟩
  · simp only [ite_mul, one_mul, zero_mul]
    rw [Finset.sum_ite_eq, if_pos (mem_range.2 hi)]
    simp only [eq_comm]
  · simp only [ite_mul, one_mul, zero_mul, mul_ite, mul_one, mul_zero]
    rw [Finset.sum_ite_eq, if_pos (mem_range.2 hi), Finset.sum_ite_eq, if_pos (mem_range.2 hj)]

/-- From the sweeps to the answer. -/
theorem solve_run {thr : ℝ} {a : Sym ℝ} {A D V : ℕ → ℕ → ℝ} (h : a.Is a.dim A) (h0 : 0 < a.dim) (hn : a.dim < 10000) {tol r : ℝ} {maxIter : ℤ}
    {k : ℕ} (e1 : iterate thr tol a.dim maxIter.toNat (work a.dim A fun p q => if p = q then 1 else 0) 0 = .ret (work a.dim D V, k, r)) :
    ∃ π : Equiv.Perm ℕ, (∀ k, π k < a.dim ↔ k < a.dim) ∧ (∀ i j, i < j → j < a.dim → D (π i) (π i) ≤ D (π j) (π j)) ∧
      solve thr a tol maxIter = .ret ⟨tab a.dim fun k => D (π k) (π k), Dense.ofFn a.dim a.dim fun i k => V i (π k), decide (r ≤ tol), k, r⟩ := by
  have hS : Dense.Shape a.dim a.dim := Sym.shape_of_dim (by omega)
  obtain ⟨π, p1, p2, p3⟩ := sortEigen_spec (n := a.dim) (fun k => D k k) V
  refine ⟨π, p1, p3, ?_⟩
  rw [solve, copyUpper_spec h hn, Outcome.bind_ret, Dense.identity_spec hS h0, Outcome.bind_ret]
  change (iterate thr tol a.dim maxIter.toNat (work a.dim A _) 0 >>= _) = _
  rw [e1, Outcome.bind_ret]
  simp only [work]
  rw [diagonal_eq, Outcome.bind_ret, p2, Outcome.bind_ret]

/-- **C110.**  The solver always answers for a nonempty symmetric matrix, whatever its elements, the tolerance and the number of sweeps
allowed.  The eigenvalues ascend, the eigenvectors are orthonormal, the reported residual is exactly the distance from a
diagonalisation, `converged` says exactly whether it is within the tolerance, fewer sweeps than allowed are made only then, and the residual is
never larger than the norm above the diagonal of the matrix given.  No sweep is made when that norm is already within the tolerance. -/
theorem solve_spec {thr : ℝ} (ht : 0 < thr) {n : ℕ} {a : Sym ℝ} {A : ℕ → ℕ → ℝ} (h : a.Is n A) (h0 : 0 < n) (hn : n < 10000) (tol : ℝ)
    (maxIter : ℤ) : ∃ (res : Result) (lam : ℕ → ℝ) (W : ℕ → ℕ → ℝ), solve thr a tol maxIter = .ret res ∧ res.values = tab n lam ∧
      res.vectors.Is n n W ∧ Spectral n A lam W res.residual ∧ 0 ≤ res.residual ∧ (res.converged = true ↔ res.residual ≤ tol) ∧
      res.iterations ≤ maxIter.toNat ∧ (res.converged = false → res.iterations = maxIter.toNat) ∧ res.residual ≤ offDiag n A ∧
      (res.iterations = 0 ↔ offDiag n A ≤ tol ∨ maxIter ≤ 0) := by
  obtain ⟨hv, rfl, hg⟩ := h
  have h : a.Is a.dim A := ⟨hv, rfl, hg⟩
  have hS : Dense.Shape a.dim a.dim := Sym.shape_of_dim (by omega)
  obtain ⟨D, V, k, e1, e2, e3, -, e5, e6, e7, e8, -, -⟩ := iterate_spec (tol := tol) ht maxIter.toNat A _ 0 (inv_start h)
  obtain ⟨π, p1, p3, p2⟩ := solve_run h h0 hn e1
  refine ⟨⟨tab a.dim fun k => D (π k) (π k), Dense.ofFn a.dim a.dim fun i k => V i (π k), decide (Real.sqrt (upper a.dim D) ≤ tol), k,
    Real.sqrt (upper a.dim D)⟩, _, _, p2, rfl, Dense.is_ofFn hS _, e2.spectral π p1 p3, Real.sqrt_nonneg _, decide_eq_true_iff, by simpa using e5,
    fun hc => ?_, Real.sqrt_le_sqrt e3, ?_⟩
  · by_contra hk
    have := e6 (by simp only at hk; omega)
    simp only [decide_eq_false_iff_not] at hc
    exact hc this
  · change k = 0 ↔ Real.sqrt (upper a.dim A) ≤ tol ∨ _
    constructor
    · intro hk
      by_contra hc
      have hc := not_or.1 hc
      have := e8 (not_le.1 hc.1) (by omega)
      omega
    · rintro (hc | hc)
      · exact e7 hc
      · omega

/-- **C110.**  Enough sweeps always suffice: when the tolerance is not below what the skipping of small elements can leave behind, the
solver converges within `offDiag² / thr²` sweeps, for every matrix. -/
theorem solve_converges {thr : ℝ} (ht : 0 < thr) {n : ℕ} {a : Sym ℝ} {A : ℕ → ℕ → ℝ} (h : a.Is n A) (h0 : 0 < n) (hn : n < 10000) {tol : ℝ}
    {maxIter : ℤ} (h1 : 0 ≤ tol) (h2 : n * (n - 1) / 2 * thr ^ 2 ≤ tol ^ 2) (h3 : offDiag n A ^ 2 ≤ tol ^ 2 + maxIter.toNat * thr ^ 2) :
    ∃ res, solve thr a tol maxIter = .ret res ∧ res.converged = true := by
  obtain ⟨hv, rfl, hg⟩ := h
  have h : a.Is a.dim A := ⟨hv, rfl, hg⟩
  have hS : Dense.Shape a.dim a.dim := Sym.shape_of_dim (by omega)
  obtain ⟨D, V, k, e1, -, -, -, -, -, -, -, -, e10⟩ := iterate_spec (tol := tol) ht maxIter.toNat A _ 0 (inv_start h)
  obtain ⟨π, p1, p3, p2⟩ := solve_run h h0 hn e1
  have h3 : Real.sqrt (upper a.dim A) ^ 2 ≤ _ := h3
  rw [Real.sq_sqrt (upper_nonneg a.dim A)] at h3
  exact ⟨_, p2, decide_eq_true (e10 h1 h2 h3)⟩

/-- **C110.**  A matrix of dimension two needs one sweep. -/
theorem solve_two {thr : ℝ} (ht : 0 < thr) {a : Sym ℝ} {A : ℕ → ℕ → ℝ} (h : a.Is 2 A) {tol : ℝ} {maxIter : ℤ} (h1 : thr ≤ tol) (h2 : 0 < maxIter) :
    ∃ res, solve thr a tol maxIter = .ret res ∧ res.converged = true ∧ res.iterations ≤ 1 ∧ (|A 0 1| ≤ tol ∨ res.residual = 0) := by
  obtain ⟨hv, hd, hg⟩ := h
  have h : a.Is a.dim A := ⟨hv, rfl, by rw [hd]; exact hg⟩
  have hu : ∀ D : ℕ → ℕ → ℝ, Real.sqrt (upper 2 D) = |D 0 1| := fun D => by
    rw [← Real.sqrt_sq_eq_abs]
    congr 1
    simp [upper, Finset.sum_range_succ]
  obtain ⟨m, hm⟩ : ∃ m, maxIter.toNat = m + 1 := ⟨maxIter.toNat - 1, by omega⟩
  have key : ∃ D V k, iterate thr tol a.dim maxIter.toNat (work a.dim A fun p q => if p = q then 1 else 0) 0 = .ret (work a.dim D V, k, |D 0 1|) ∧
      |D 0 1| ≤ tol ∧ k ≤ 1 ∧ (|A 0 1| ≤ tol ∨ |D 0 1| = 0) := by
    have hi := inv_start h
    rw [hd] at hi ⊢
    rw [hm, iterate]
    have e : offNorm 2 (work 2 A fun p q => if p = q then 1 else 0).d = _ := offNorm_eq 2 A
    rw [e, Outcome.bind_ret, hu]
    by_cases hr : |A 0 1| > tol
    · rw [if_pos hr]
      obtain ⟨D1, V1, g1, g2, -, -, g5⟩ := rotateOne_spec ht hi (show 0 < 2 by omega) (show 1 < 2 by omega) (show 0 ≠ 1 by omega)
      have g6 := (g5 (by linarith)).2
      have hs : sweep thr 2 (work 2 A fun p q => if p = q then 1 else 0) = .ret (work 2 D1 V1) := by
        rw [← g1, sweep]
        simp only [forRange, forFromTo, Outcome.bind_ret, Nat.reduceAdd, Nat.reduceSub]
      rw [hs, Outcome.bind_ret]
      obtain ⟨D', V', k', f1, -, -, -, -, -, f7, -, f9, -⟩ := iterate_spec (tol := tol) ht m D1 V1 1 g2
      have h0 : Real.sqrt (upper 2 D1) ≤ tol := by rw [hu, g6, abs_zero]; linarith
      obtain ⟨rfl, rfl⟩ := f9 (.inl h0)
      rw [hu] at f1 h0
      exact ⟨D', V', k', f1, h0, (f7 (by rw [hu]; exact h0)).le, .inr (by rw [g6, abs_zero])⟩
    · rw [if_neg hr]
      exact ⟨A, _, 0, rfl, not_lt.1 hr, by omega, .inl (not_lt.1 hr)⟩
  obtain ⟨D, V, k, e1, e2, e3, e4⟩ := key
  obtain ⟨π, p1, p3, p2⟩ := solve_run h (by omega) (by omega) e1
  exact ⟨_, p2, decide_eq_true e2, e3, e4⟩

/-- **C110 (disagreement).**  When every element off the diagonal is below the internal threshold but their norm exceeds the tolerance, the
solver makes all the sweeps allowed without changing anything and reports that it did not converge. -/
theorem solve_stalls {thr : ℝ} (ht : 0 < thr) {n : ℕ} {a : Sym ℝ} {A : ℕ → ℕ → ℝ} (h : a.Is n A) (h0 : 0 < n) (hn : n < 10000) {tol : ℝ}
    (maxIter : ℤ) (h1 : ∀ i < n, ∀ j < n, i ≠ j → |A i j| < thr) (h2 : tol < offDiag n A) :
    ∃ res, solve thr a tol maxIter = .ret res ∧ res.converged = false ∧ res.iterations = maxIter.toNat ∧ res.residual = offDiag n A := by
  obtain ⟨hv, rfl, hg⟩ := h
  have h : a.Is a.dim A := ⟨hv, rfl, hg⟩
  have hS : Dense.Shape a.dim a.dim := Sym.shape_of_dim (by omega)
  obtain ⟨D, V, k, e1, -, -, -, e5, e6, -, -, e9, -⟩ := iterate_spec (tol := tol) ht maxIter.toNat A _ 0 (inv_start h)
  obtain ⟨rfl, rfl⟩ := e9 (.inr h1)
  obtain ⟨π, p1, p3, p2⟩ := solve_run h h0 hn e1
  refine ⟨_, p2, decide_eq_false (not_le.2 h2), ?_, rfl⟩
  by_contra hk
  exact absurd (e6 (by simp only at hk; omega)) (not_le.2 h2)

/-- **C110.**  The empty matrix is refused. -/
theorem solve_empty (thr tol : ℝ) (maxIter : ℤ) : solve thr ⟨0, []⟩ tol maxIter = .exn (.mml "MatrixDimensionError") := rfl

theorem symmetrize_spec {a : Dense ℝ} {n c : ℕ} {f : ℕ → ℕ → ℝ} (h : a.Is n c f) (hc : n ≤ c) (hn : n < 10000) :
    ∃ s, symmetrize a = .ret s ∧ Sym.Is s n (fun i j => (f i j + f j i) / 2) := by
  obtain ⟨hS, rfl⟩ := Dense.is_unique.1 h
  obtain ⟨s0, e0, hv0, hd0, -⟩ := Sym.newFill_spec n hn (0 : ℝ)
  have hr : (Dense.ofFn n c f).rows = n := rfl
  rw [symmetrize, hr, e0, Outcome.bind_ret]
  obtain ⟨t, ht, h1, h2, h3⟩ := forRange_rule
    (fun k (m : Sym ℝ) => m.Valid ∧ m.dim = n ∧ ∀ p < k, ∀ q, p ≤ q → q < n → m.get p q = .ret ((f p q + f q p) / 2)) n s0
    (fun s i => forFromTo i n s (fun s j => do
      let x ← (Dense.ofFn n c f).get i j
      let y ← (Dense.ofFn n c f).get j i
      s.set i j (0.5 * (x + y)))) ⟨hv0, hd0, fun p hp => by omega⟩ (by
      rintro i m hi ⟨hv, hd, hg⟩
      obtain ⟨t, ht, h1, h2, h3, h4⟩ := forFromTo_rule
        (fun k (m : Sym ℝ) => m.Valid ∧ m.dim = n ∧ (∀ p < i, ∀ q, p ≤ q → q < n → m.get p q = .ret ((f p q + f q p) / 2)) ∧
          ∀ q, i ≤ q → q < k → m.get i q = .ret ((f i q + f q i) / 2)) i n hi.le m (fun s j => do
            let x ← (Dense.ofFn n c f).get i j
            let y ← (Dense.ofFn n c f).get j i
            s.set i j (0.5 * (x + y))) ⟨hv, hd, hg, fun q hq => by omega⟩ (by
          rintro j m hij hj ⟨hv, hd, hg, hg'⟩
          obtain ⟨m', e, hv', hd', hr⟩ := Sym.write_read m hv i j (by omega) (by omega) (0.5 * (f i j + f j i))
          rw [Dense.get_ofFn _ hi (by omega), Outcome.bind_ret, Dense.get_ofFn _ hj (by omega), Outcome.bind_ret]
          refine ⟨m', e, hv', by omega, fun p hp q hq1 hq2 => ?_, fun q hq1 hq2 => ?_⟩
          · rw [hr p (by omega) q (by omega), if_neg (by omega), hg p hp q hq1 hq2]
          · rw [hr i (by omega) q (by omega)]
            by_cases hqj : q = j
            · rw [if_pos (Or.inl ⟨rfl, hqj⟩), hqj]
              congr 1
              ring
            · rw [if_neg (by omega), hg' q hq1 (by omega)])
      refine ⟨t, ht, h1, h2, fun p hp q hq1 hq2 => ?_⟩
      rcases Nat.lt_or_ge p i with h5 | h5
      · exact h3 p h5 q hq1 hq2
      · obtain rfl : p = i := by omega
        exact h4 q hq1 hq2)
  refine ⟨t, ht, h1, h2, fun i hi j hj => ?_⟩
  rcases le_total i j with hij | hij
  · exact h3 i hi j hij hj
  · beta_reduce
    rw [show (f i j + f j i) / 2 = (f j i + f i j) / 2 by ring, ← h3 j hj i hij hi]
    simp only [Sym.get]
    congr 1
    exact (Sym.lin_inj _ _ _ _).2 (by omega)

/-- **C110.**  The solver for a general matrix answers for its symmetric part (of the leading square block, when there are more columns
than rows). -/
theorem solveDense_spec {thr : ℝ} (ht : 0 < thr) {n c : ℕ} {a : Dense ℝ} {f : ℕ → ℕ → ℝ} (h : a.Is n c f) (hc : n ≤ c) (h0 : 0 < n) (hn : n < 10000)
    (tol : ℝ) (maxIter : ℤ) : ∃ (res : Result) (lam : ℕ → ℝ) (W : ℕ → ℕ → ℝ), solveDense thr a tol maxIter = .ret res ∧
      res.values = tab n lam ∧ res.vectors.Is n n W ∧ Spectral n (fun i j => (f i j + f j i) / 2) lam W res.residual ∧
      (res.converged = true ↔ res.residual ≤ tol) := by
  obtain ⟨s, hs, hI⟩ := symmetrize_spec h hc hn
  obtain ⟨res, lam, W, e1, e2, e3, e4, -, e5, -⟩ := solve_spec ht hI h0 hn tol maxIter
  exact ⟨res, lam, W, by rw [solveDense, hs, Outcome.bind_ret, e1], e2, e3, e4, e5⟩

/-- **C110.**  With a configuration: a nonpositive number of sweeps means a hundred, and the status is `Success` exactly when the residual
is within the tolerance. -/
theorem solveConfig_spec {thr : ℝ} (ht : 0 < thr) {n : ℕ} {a : Sym ℝ} {A : ℕ → ℕ → ℝ} (h : a.Is n A) (h0 : 0 < n) (hn : n < 10000) (tol : ℝ)
    (maxIter : ℤ) : ∃ (res : Result) (ok : Bool), solveConfig thr a tol maxIter = .ret (res, ok) ∧
      solve thr a tol (if maxIter > 0 then maxIter else 100) = .ret res ∧ (ok = true ↔ res.residual ≤ tol) ∧
      (maxIter ≤ 0 → res.iterations ≤ 100) := by
  obtain ⟨res, lam, W, e1, e2, e3, e4, -, e5, e6, -⟩ := solve_spec ht h h0 hn tol (if maxIter > 0 then maxIter else 100)
  refine ⟨res, res.converged, by rw [solveConfig, e1, Outcome.bind_ret], e1, e5, fun hm => ?_⟩
  rw [if_neg (by omega)] at e6
  exact e6

/-- **C110.**  An answer with residual zero is an exact diagonalisation. -/
theorem Spectral.exact {n : ℕ} {A W : ℕ → ℕ → ℝ} {lam : ℕ → ℝ} (h : Spectral n A lam W 0) {k i : ℕ} (hk : k < n) (hi : i < n) :
    ∑ j ∈ range n, A i j * W j k = lam k * W i k := by
  have h1 := h.pairs
  rw [show 2 * (0 : ℝ) ^ 2 = 0 by norm_num, Finset.sum_eq_zero_iff_of_nonneg (fun k _ => Finset.sum_nonneg fun i _ => sq_nonneg _)] at h1
  have h2 := h1 k (mem_range.2 hk)
  rw [Finset.sum_eq_zero_iff_of_nonneg (fun i _ => sq_nonneg _)] at h2
  have h3 := h2 i (mem_range.2 hi)
  exact sub_eq_zero.1 (pow_eq_zero_iff two_ne_zero |>.1 h3)

/-- **C110.**  Each returned pair satisfies the eigenvalue equation up to the residual. -/
theorem Spectral.pair_le {n : ℕ} {A W : ℕ → ℕ → ℝ} {lam : ℕ → ℝ} {r : ℝ} (h : Spectral n A lam W r) {k : ℕ} (hk : k < n) :
    ∑ i ∈ range n, (∑ j ∈ range n, A i j * W j k - lam k * W i k) ^ 2 ≤ 2 * r ^ 2 := by
  rw [← h.pairs]
  exact Finset.single_le_sum (f := fun k => ∑ i ∈ range n, (∑ j ∈ range n, A i j * W j k - lam k * W i k) ^ 2)
    (fun k _ => Finset.sum_nonneg fun i _ => sq_nonneg _) (mem_range.2 hk)

/-- **C110.**  No eigenvalue is missed: every eigenvalue of the matrix is within `√2 · residual` of a returned one. -/
theorem Spectral.complete {n : ℕ} {A W : ℕ → ℕ → ℝ} {lam : ℕ → ℝ} {r : ℝ} (h : Spectral n A lam W r) (hr : 0 ≤ r)
    (hA : ∀ i < n, ∀ j < n, A i j = A j i) {mu : ℝ} {x : ℕ → ℝ} (hx : ∃ i < n, x i ≠ 0)
    (he : ∀ i < n, ∑ j ∈ range n, A i j * x j = mu * x i) : ∃ k < n, |mu - lam k| ≤ Real.sqrt 2 * r := by
  by_contra hc
  push Not at hc
  obtain ⟨i0, hi0, hx0⟩ := hx
  have hX : 0 < ∑ i ∈ range n, x i ^ 2 :=
    Finset.sum_pos' (fun i _ => sq_nonneg _) ⟨i0, mem_range.2 hi0, by positivity⟩
  set y : ℕ → ℝ := fun k => ∑ i ∈ range n, W i k * x i with hy
  have hW := SVD.rows_ortho h.ortho
  have hn : ∑ k ∈ range n, y k ^ 2 = ∑ i ∈ range n, x i ^ 2 := SVD.norm_comb (Q := fun k i => W i k) hW x
  have hk : ∀ k ∈ range n, ((mu - lam k) * y k) ^ 2 ≤
      (∑ i ∈ range n, (∑ j ∈ range n, A i j * W j k - lam k * W i k) ^ 2) * ∑ i ∈ range n, x i ^ 2 := fun k hk => by
    have e : (mu - lam k) * y k = ∑ i ∈ range n, (∑ j ∈ range n, A i j * W j k - lam k * W i k) * x i := by
      have e1 : ∑ i ∈ range n, (∑ j ∈ range n, A i j * W j k) * x i = mu * y k := by
        have : ∀ i ∈ range n, (∑ j ∈ range n, A i j * W j k) * x i = ∑ j ∈ range n, W j k * (A j i * x i) := fun i hi => by
          rw [Finset.sum_mul]
          exact Finset.sum_congr rfl fun j hj => by rw [hA i (mem_range.1 hi) j (mem_range.1 hj)]; ring
        rw [Finset.sum_congr rfl this, Finset.sum_comm, hy, Finset.mul_sum]
        refine Finset.sum_congr rfl fun j hj => ?_
        rw [← Finset.mul_sum, he j (mem_range.1 hj)]; ring
      have e2 : ∑ i ∈ range n, (∑ j ∈ range n, A i j * W j k - lam k * W i k) * x i = mu * y k - lam k * y k := by
        rw [← e1, hy, Finset.mul_sum, ← Finset.sum_sub_distrib]
        exact Finset.sum_congr rfl fun i _ => by ring
      rw [e2]; ring
    rw [e]
    exact Finset.sum_mul_sq_le_sq_mul_sq _ _ _
  have hsum := Finset.sum_le_sum hk
  rw [← Finset.sum_mul, h.pairs] at hsum
  have hlt : ∑ k ∈ range n, 2 * r ^ 2 * y k ^ 2 < ∑ k ∈ range n, ((mu - lam k) * y k) ^ 2 := by
    have hsq : ∀ k < n, 2 * r ^ 2 < (mu - lam k) ^ 2 := fun k hk => by
      have h1 := hc k hk
      have h2 : (Real.sqrt 2 * r) ^ 2 < |mu - lam k| ^ 2 := pow_lt_pow_left₀ h1 (by positivity) two_ne_zero
      rwa [mul_pow, Real.sq_sqrt (by norm_num), sq_abs] at h2
    refine Finset.sum_lt_sum (fun k hk => ?_) ?_
    · rw [mul_pow]
      exact mul_le_mul_of_nonneg_right (hsq k (mem_range.1 hk)).le (sq_nonneg _)
    · by_contra hz
      push Not at hz
      have : ∀ k ∈ range n, y k ^ 2 = 0 := fun k hk => by
        have h1 := hz k hk
        rw [mul_pow] at h1
        have h2 := hsq k (mem_range.1 hk)
        nlinarith [sq_nonneg (y k)]
      rw [Finset.sum_eq_zero this] at hn
      linarith
  rw [← Finset.mul_sum, hn] at hlt
  linarith

/-- **C110.**  No eigenvalue is invented: within `√2 · residual` of every returned eigenvalue there is an eigenvalue of the matrix. -/
theorem Spectral.sound {n : ℕ} {A W : ℕ → ℕ → ℝ} {lam : ℕ → ℝ} {r : ℝ} (h : Spectral n A lam W r) (hr : 0 ≤ r)
    (hA : ∀ i < n, ∀ j < n, A i j = A j i) {k : ℕ} (hk : k < n) :
    ∃ (mu : ℝ) (x : ℕ → ℝ), (∃ i < n, x i ≠ 0) ∧ (∀ i < n, ∑ j ∈ range n, A i j * x j = mu * x i) ∧ |mu - lam k| ≤ Real.sqrt 2 * r := by
  set M : Matrix (Fin n) (Fin n) ℝ := fun i j => A i j with hM
  have hH : M.IsHermitian := Matrix.IsHermitian.ext fun i j => by
    simp only [hM, star_trivial]
    exact hA j j.2 i i.2
  let b := hH.eigenvectorBasis
  let U : ℕ → ℕ → ℝ := fun i j => if h : i < n ∧ j < n then (b ⟨j, h.2⟩) ⟨i, h.1⟩ else 0
  let ev : ℕ → ℝ := fun j => if h : j < n then hH.eigenvalues ⟨j, h⟩ else 0
  have hU : ∀ i < n, ∀ j < n, ∑ p ∈ range n, U p i * U p j = if i = j then 1 else 0 := by
    intro i hi j hj
    have h1 := orthonormal_iff_ite.1 b.orthonormal ⟨i, hi⟩ ⟨j, hj⟩
    rw [← Fin.sum_univ_eq_sum_range (fun p => U p i * U p j) n]
    simp only [Fin.mk.injEq] at h1
    rw [← h1, PiLp.inner_apply]
    refine Finset.sum_congr rfl fun p _ => ?_
    simp only [U, p.2, hi, hj, and_self, dif_pos, Fin.eta]
    simp [mul_comm]
  have hE : ∀ i < n, ∀ j < n, ∑ p ∈ range n, A i p * U p j = ev j * U i j := by
    intro i hi j hj
    have h1 := congrFun (hH.mulVec_eigenvectorBasis ⟨j, hj⟩) ⟨i, hi⟩
    rw [← Fin.sum_univ_eq_sum_range (fun p => A i p * U p j) n]
    simp only [Matrix.mulVec, dotProduct, Pi.smul_apply, smul_eq_mul] at h1
    simp only [U, ev, hi, hj, and_self, dif_pos]
    rw [← h1]
    refine Finset.sum_congr rfl fun p _ => ?_
    simp only [p.2, hj, and_self, dif_pos, Fin.eta, hM]
    rfl
  have hUr := SVD.rows_ortho hU
  by_contra hc
  push Not at hc
  have hfar : ∀ j < n, 2 * r ^ 2 < (ev j - lam k) ^ 2 := fun j hj => by
    have h0 : ∃ i < n, U i j ≠ 0 := by
      by_contra hz
      push Not at hz
      have := hU j hj j hj
      rw [if_pos rfl, Finset.sum_eq_zero fun p hp => by rw [hz p (mem_range.1 hp), zero_mul]] at this
      exact zero_ne_one this
    have h1 := hc (ev j) (fun i => U i j) h0 fun i hi => hE i hi j hj
    have h2 : (Real.sqrt 2 * r) ^ 2 < |ev j - lam k| ^ 2 := pow_lt_pow_left₀ h1 (by positivity) two_ne_zero
    rwa [mul_pow, Real.sq_sqrt (by norm_num), sq_abs] at h2
  have hp := h.pair_le hk
  -- the components of the residual in the basis
  have hc2 : ∀ j ∈ range n, ∑ i ∈ range n, U i j * (∑ p ∈ range n, A i p * W p k - lam k * W i k) =
      (ev j - lam k) * ∑ i ∈ range n, U i j * W i k := fun j hj => by
    have e1 : ∑ i ∈ range n, U i j * ∑ p ∈ range n, A i p * W p k = ev j * ∑ i ∈ range n, U i j * W i k := by
      have : ∀ i ∈ range n, U i j * ∑ p ∈ range n, A i p * W p k = ∑ p ∈ range n, (A p i * U i j) * W p k := fun i hi => by
        rw [Finset.mul_sum]
        exact Finset.sum_congr rfl fun p hp => by rw [hA i (mem_range.1 hi) p (mem_range.1 hp)]; ring
      rw [Finset.sum_congr rfl this, Finset.sum_comm, Finset.mul_sum]
      refine Finset.sum_congr rfl fun p hp => ?_
      rw [← Finset.sum_mul, hE p (mem_range.1 hp) j (mem_range.1 hj)]; ring
    have e2 : ∑ i ∈ range n, U i j * (∑ p ∈ range n, A i p * W p k - lam k * W i k) =
        ∑ i ∈ range n, U i j * ∑ p ∈ range n, A i p * W p k - lam k * ∑ i ∈ range n, U i j * W i k := by
      rw [Finset.mul_sum, ← Finset.sum_sub_distrib]
      exact Finset.sum_congr rfl fun i _ => by ring
    rw [e2, e1]; ring
  have hnorm : ∀ z : ℕ → ℝ, ∑ j ∈ range n, (∑ i ∈ range n, U i j * z i) ^ 2 = ∑ i ∈ range n, z i ^ 2 := fun z =>
    SVD.norm_comb (Q := fun j i => U i j) hUr z
  have h1 := hnorm fun i => ∑ p ∈ range n, A i p * W p k - lam k * W i k
  have h2 := hnorm fun i => W i k
  have h3 : ∑ i ∈ range n, W i k ^ 2 = 1 := by
    have := h.ortho k hk k hk
    rw [if_pos rfl] at this
    rw [← this]
    exact Finset.sum_congr rfl fun i _ => sq _
  rw [h3] at h2
  rw [Finset.sum_congr rfl fun j hj => by rw [hc2 j hj]] at h1
  have hlt : ∑ j ∈ range n, 2 * r ^ 2 * (∑ i ∈ range n, U i j * W i k) ^ 2 <
      ∑ j ∈ range n, ((ev j - lam k) * ∑ i ∈ range n, U i j * W i k) ^ 2 := by
    refine Finset.sum_lt_sum (fun j hj => ?_) ?_
    · rw [mul_pow]
      exact mul_le_mul_of_nonneg_right (hfar j (mem_range.1 hj)).le (sq_nonneg _)
    · by_contra hz
      push Not at hz
      have : ∀ j ∈ range n, (∑ i ∈ range n, U i j * W i k) ^ 2 = 0 := fun j hj => by
        have h1 := hz j hj
        rw [mul_pow] at h1
        have h2 := hfar j (mem_range.1 hj)
        nlinarith [sq_nonneg (∑ i ∈ range n, U i j * W i k)]
      rw [Finset.sum_eq_zero this] at h2
      exact zero_ne_one h2
  rw [← Finset.mul_sum, h2, h1] at hlt
  linarith

/-! ## The hypotheses are met -/

/-- The matrix `[[2, 1], [1, 2]]`. -/
def sample : Sym ℝ := ⟨2, [2, 1, 2]⟩

theorem sample_is : sample.Is 2 (fun i j => if i = j then 2 else 1) := by
  refine ⟨rfl, rfl, fun i hi j hj => ?_⟩
  interval_cases i <;> interval_cases j <;> simp [sample, Sym.get, Sym.linearIndex, Outcome.index]

theorem sample_off : offDiag 2 (fun i j => if i = j then 2 else 1) = 1 := by
  simp [offDiag, Finset.sum_range_succ]

-- `solve_two`: one sweep gives the exact answer
example : ∃ res, solve 1e-15 sample 1e-10 100 = .ret res ∧ res.converged = true ∧ res.iterations ≤ 1 ∧ res.residual = 0 := by
  obtain ⟨res, h1, h2, h3, h4⟩ := solve_two (thr := 1e-15) (by norm_num) sample_is (tol := 1e-10) (maxIter := 100) (by norm_num) (by norm_num)
  refine ⟨res, h1, h2, h3, h4.resolve_left ?_⟩
  norm_num

-- `solve_spec`, with `Spectral.exact`, `Spectral.trace`: the eigenvalues 1 and 3
example : ∃ (res : Result) (lam : ℕ → ℝ), solve 1e-15 sample 1e-10 100 = .ret res ∧ res.values = tab 2 lam ∧ lam 0 = 1 ∧ lam 1 = 3 := by
  obtain ⟨res, lam, W, h1, h2, -, h3, -⟩ := solve_spec (thr := 1e-15) (by norm_num) sample_is (by norm_num) (by norm_num) 1e-10 100
  obtain ⟨res', g1, -, -, g4⟩ := solve_two (thr := 1e-15) (by norm_num) sample_is (tol := 1e-10) (maxIter := 100) (by norm_num) (by norm_num)
  rw [h1] at g1
  obtain rfl := Outcome.ret.inj g1
  rw [g4.resolve_left (by norm_num)] at h3
  have a1 := h3.trace
  have a2 := h3.frobenius
  have a3 := h3.ascending 0 1 (by norm_num) (by norm_num)
  simp [Finset.sum_range_succ] at a1 a2
  have : (lam 0 - 1) * (lam 0 - 3) = 0 := by
    have e : lam 1 = 4 - lam 0 := by linarith
    rw [e] at a2
    nlinarith
  rcases mul_eq_zero.1 this with h | h
  · exact ⟨res, lam, h1, h2, by linarith, by linarith⟩
  · exact absurd a3 (by rw [show lam 1 = 4 - lam 0 by linarith]; linarith)

-- `solve_converges`
example : ∃ res, solve (1 / 10) sample (1 / 5) 100 = .ret res ∧ res.converged = true :=
  solve_converges (by norm_num) sample_is (by norm_num) (by norm_num) (by norm_num) (by norm_num) (by rw [sample_off, show Int.toNat 100 = 100 from rfl]; norm_num)

-- `solve_stalls`: the threshold and tolerance of a single-precision build
example : ∃ res, solve 1e-6 ⟨2, [2, 1e-7, 2]⟩ 1e-10 100 = .ret res ∧ res.converged = false ∧ res.iterations = 100 := by
  have hI : Sym.Is (⟨2, [2, 1e-7, 2]⟩ : Sym ℝ) 2 (fun i j => if i = j then 2 else 1e-7) := by
    refine ⟨rfl, rfl, fun i hi j hj => ?_⟩
    interval_cases i <;> interval_cases j <;> simp [Sym.get, Sym.linearIndex, Outcome.index]
  obtain ⟨res, h1, h2, h3, -⟩ := solve_stalls (thr := 1e-6) (by norm_num) hI (by norm_num) (by norm_num) (tol := 1e-10) 100
    (fun i _ j _ hij => by simp only [if_neg hij]; rw [abs_of_pos] <;> norm_num) (by
      rw [offDiag]
      simp [Finset.sum_range_succ]
      rw [Real.sqrt_sq] <;> norm_num)
  exact ⟨res, h1, h2, h3⟩

-- `Spectral.complete` and `Spectral.sound` have premises met by the matrix above with the eigenvector (1, 1)
example : ∃ i < 2, ((fun _ => 1 : ℕ → ℝ)) i ≠ 0 := ⟨0, by norm_num, one_ne_zero⟩
example : ∀ i < 2, ∑ j ∈ range 2, (if i = j then (2 : ℝ) else 1) * 1 = 3 * 1 := by
  intro i hi
  interval_cases i <;> norm_num [Finset.sum_range_succ]

end Verif.Eigen
