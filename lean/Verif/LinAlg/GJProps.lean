import Verif.LinAlg.GJLemmas
import Verif.Mat.DenseProps
import Mathlib.Algebra.Order.Ring.Int
import Mathlib.Data.Rat.Floor
import Mathlib.Tactic.IntervalCases
import Mathlib.Tactic.NormNum

/-!
# Properties of Gauss-Jordan elimination: `GaussJordanSolver` (C37) and `Matrix::Invert` (C38)
-/

set_option autoImplicit false

namespace Verif.LinAlg

open Verif.Mat
open Verif.Mat.Dense (Valid Is Shape ofFn)

variable {K : Type} [Field K] [LinearOrder K] [IsStrictOrderedRing K]

/-- The elements of the identity matrix. -/
def δ (K : Type) [Zero K] [One K] (i j : ℕ) : K := if i = j then 1 else 0

/-- Some combination of the rows, not all coefficients zero, vanishes. -/
def RowsDependent (n : ℕ) (A : ℕ → ℕ → K) : Prop :=
  ∃ v : ℕ → K, (∃ k < n, v k ≠ 0) ∧ ∀ c < n, ∑ k ∈ Finset.range n, v k * A k c = 0

/-- `V` is the inverse of `A`, and `A` is far enough from singular for the threshold `eps * max|A| * n`: that
threshold times every column sum of `|V|` is at most one. -/
def WellConditioned (eps : K) (n : ℕ) (A V : ℕ → ℕ → K) : Prop :=
  (∀ r < n, ∀ c < n, ∑ k ∈ Finset.range n, A r k * V k c = δ K r c) ∧
  ∃ M, 0 ≤ M ∧ (∀ r < n, ∀ c < n, |A r c| ≤ M) ∧
    ∀ j < n, eps * M * n * ∑ c ∈ Finset.range n, |V c j| ≤ 1

/-! ## Lemmas -/

omit [LinearOrder K] [IsStrictOrderedRing K] in
theorem comb_cancel {n : ℕ} {A V : ℕ → ℕ → K} (v : ℕ → K)
    (h : ∀ r < n, ∀ c < n, ∑ k ∈ Finset.range n, A r k * V k c = δ K r c) {j : ℕ} (hj : j < n) :
    ∑ c ∈ Finset.range n, (∑ k ∈ Finset.range n, v k * A k c) * V c j = v j := by
  calc ∑ c ∈ Finset.range n, (∑ k ∈ Finset.range n, v k * A k c) * V c j
      = ∑ c ∈ Finset.range n, ∑ k ∈ Finset.range n, v k * (A k c * V c j) := by
        refine Finset.sum_congr rfl fun c _ => ?_
        rw [Finset.sum_mul]
        exact Finset.sum_congr rfl fun k _ => by ring
    _ = ∑ k ∈ Finset.range n, v k * ∑ c ∈ Finset.range n, A k c * V c j := by
        rw [Finset.sum_comm]
        exact Finset.sum_congr rfl fun k _ => by rw [Finset.mul_sum]
    _ = ∑ k ∈ Finset.range n, v k * δ K k j :=
        Finset.sum_congr rfl fun k hk => by rw [h k (Finset.mem_range.1 hk) j hj]
    _ = v j := by simp [δ, hj]

omit [LinearOrder K] [IsStrictOrderedRing K] in
theorem not_dependent {n : ℕ} {A V : ℕ → ℕ → K}
    (h : ∀ r < n, ∀ c < n, ∑ k ∈ Finset.range n, A r k * V k c = δ K r c) : ¬ RowsDependent n A := by
  rintro ⟨v, ⟨j, hj, hne⟩, hz⟩
  refine hne ?_
  rw [← comb_cancel v h hj]
  exact Finset.sum_eq_zero fun c hc => by rw [hz c (Finset.mem_range.1 hc), zero_mul]

theorem WellConditioned.not_near {eps : K} {n : ℕ} {A V : ℕ → ℕ → K} (h : WellConditioned eps n A V) (heps : 0 ≤ eps)
    (norm : K) (h0 : 0 ≤ norm) (hle : ∀ M, 0 ≤ M → (∀ r < n, ∀ c < n, |A r c| ≤ M) → norm ≤ M) :
    ¬ NearSingular n A (eps * norm * n) := by
  obtain ⟨hV, M, hM, hall, hcol⟩ := h
  rintro ⟨v, ⟨j, hj, hvj⟩, hv⟩
  have hnM : eps * norm * n ≤ eps * M * n :=
    mul_le_mul_of_nonneg_right (mul_le_mul_of_nonneg_left (hle M hM hall) heps) (Nat.cast_nonneg n)
  have h1 : |v j| ≤ ∑ c ∈ Finset.range n, |∑ k ∈ Finset.range n, v k * A k c| * |V c j| := by
    rw [← comb_cancel v hV hj]
    refine (Finset.abs_sum_le_sum_abs _ _).trans (le_of_eq (Finset.sum_congr rfl fun c _ => abs_mul _ _))
  have hex : ∃ c ∈ Finset.range n, V c j ≠ 0 := by
    by_contra hne
    push Not at hne
    have := hV j hj j hj
    rw [Finset.sum_eq_zero fun k hk => by rw [hne k hk, mul_zero]] at this
    simp [δ] at this
  have h2 : ∑ c ∈ Finset.range n, |∑ k ∈ Finset.range n, v k * A k c| * |V c j| <
      ∑ c ∈ Finset.range n, eps * norm * n * |V c j| := by
    obtain ⟨c, hc, hne⟩ := hex
    refine Finset.sum_lt_sum (fun c hc => mul_le_mul_of_nonneg_right (hv c (Finset.mem_range.1 hc)).le (abs_nonneg _))
      ⟨c, hc, mul_lt_mul_of_pos_right (hv c (Finset.mem_range.1 hc)) (abs_pos.2 hne)⟩
  have h3 : ∑ c ∈ Finset.range n, eps * norm * n * |V c j| ≤ 1 := by
    rw [← Finset.mul_sum]
    exact (mul_le_mul_of_nonneg_right hnM (Finset.sum_nonneg fun _ _ => abs_nonneg _)).trans (hcol j hj)
  rw [hvj, abs_one] at h1
  exact absurd (h1.trans_lt (h2.trans_le h3)) (lt_irrefl _)

omit [IsStrictOrderedRing K] in
theorem solveInPlaceM_ofFn {n m : ℕ} (A B : ℕ → ℕ → K) (eps : K) (hn : n ≠ 0) (hm : m ≠ 0) :
    solveInPlaceM eps (ofFn n n A) (ofFn n m B) =
      gaussJordan (.exn (.mml "MatrixNumericalError")) eps (ofFn n n A) (ofFn n m B) := by
  rw [solveInPlaceM, if_neg (by simp), if_neg (by simp [hn]), if_neg (by simp [hn, hm]), if_neg (by simp)]

omit [LinearOrder K] [IsStrictOrderedRing K] in
theorem columnMatrix_tab {n : ℕ} (h : Shape n 1) (b : ℕ → K) :
    columnMatrix (tab n b) = .ret (ofFn n 1 (fun i _ => b i)) := by
  rw [columnMatrix]
  simp only [length_tab]
  have e : Dense.new (K := K) (n : ℤ) 1 = .ret (ofFn n 1 fun _ _ => 0) := by exact_mod_cast Dense.new_spec (K := K) h
  rw [e, Outcome.bind_ret]
  obtain ⟨t, ht, rfl⟩ := forRange_rule
    (fun k m => m = ofFn n 1 (fun i _ => if i < k then b i else 0)) n (ofFn n 1 fun _ _ => (0 : K))
    (fun m i => do
      let x ← Outcome.index (tab n b) i
      m.set i 0 x)
    (Dense.ofFn_congr fun i _ j _ => by simp)
    (by
      rintro k _ hk rfl
      refine ⟨_, by rw [index_tab _ hk, Outcome.bind_ret, Dense.set_ofFn _ hk (by omega)], ?_⟩
      refine Dense.ofFn_congr fun i _ j hj => ?_
      by_cases hik : i = k
      · subst hik; rw [if_pos ⟨rfl, by omega⟩, if_pos (by omega)]
      · rw [if_neg (by tauto)]
        by_cases h2 : i < k
        · rw [if_pos h2, if_pos (by omega)]
        · rw [if_neg h2, if_neg (by omega)])
  rw [ht]
  congr 1
  exact Dense.ofFn_congr fun i hi j _ => by rw [if_pos hi]

theorem shape_col {n : ℕ} (h : Shape n n) (hn : n ≠ 0) : Shape n 1 := by
  rcases h with h | h
  · omega
  · exact Or.inr ⟨h.1, by omega, h.2.2.1, by omega, by omega⟩

/-! ## Solving -/

/-- **C37 (Gauss-Jordan, several right-hand sides).**  `SolveInPlace(A, B)` on consistent square `A` and matching
`B` has no undefined behaviour; the only exceptions are a dimension error for empty arguments and the two
announced numerical ones; and if it returns, the product of the original `A` with the new `B` is the original `B`,
and the new `A` is the inverse of the original. -/
theorem solveInPlaceM_solves (eps : K) (a b : Dense K) (ha : Valid a) (hb : Valid b) (hsq : a.rows = a.cols)
    (hab : a.rows = b.rows) :
    solveInPlaceM eps a b ≠ .ub ∧
    (∀ e, solveInPlaceM eps a b = .exn e → e = .mml "SingularMatrixError" ∨ e = .mml "MatrixNumericalError" ∨
      (e = .mml "MatrixDimensionError" ∧ a.rows = 0)) ∧
    ∀ a' x, solveInPlaceM eps a b = .ret (a', x) →
      Valid x ∧ a.mul x = .ret b ∧ ∃ e, a.mul a' = .ret e ∧ Is e a.rows a.rows (δ K) := by
  obtain ⟨n, n', A, hs, rfl⟩ := ha.exists_ofFn
  obtain ⟨n'', m, B, hs', rfl⟩ := hb.exists_ofFn
  simp only [Dense.ofFn_rows, Dense.ofFn_cols] at hsq hab
  subst hsq hab
  simp only [Dense.ofFn_rows]
  by_cases hn : n = 0
  · have e : solveInPlaceM eps (ofFn n n A) (ofFn n m B) = .exn (.mml "MatrixDimensionError") := by
      rw [solveInPlaceM, if_neg (by simp), if_pos (by simp [hn])]
    rw [e]
    refine ⟨by simp, ?_, by simp⟩
    intro e he
    cases he
    exact Or.inr (Or.inr ⟨rfl, hn⟩)
  have hm : m ≠ 0 := by rcases hs' with h | h <;> omega
  rw [solveInPlaceM_ofFn A B eps hn hm]
  have h := Outcome.sat_iff.1 (gaussJordan_sat (n := n) (m := m) A B (.exn (.mml "MatrixNumericalError")) eps
    (fun e => e = .mml "SingularMatrixError" ∨ e = .mml "MatrixNumericalError" ∨
      (e = .mml "MatrixDimensionError" ∧ n = 0)) (fun _ _ _ _ => Or.inl rfl) (fun _ => Or.inr (Or.inl rfl)))
  refine ⟨h.1, h.2.1, fun a' x hx => ?_⟩
  obtain ⟨R, X, hRX, hR, hX⟩ := h.2.2 _ hx
  cases hRX
  refine ⟨Dense.valid_ofFn hs' X, ?_, _, Dense.mul_ofFn hs A R, ?_⟩
  · rw [Dense.mul_ofFn hs' A X]
    congr 1
    exact Dense.ofFn_congr hX
  · refine Dense.is_unique.2 ⟨hs, Dense.ofFn_congr fun r hr c hc => ?_⟩
    rw [hR r hr c hc]
    rfl

/-- **C37 (Gauss-Jordan).**  A singular matrix is never accepted. -/
theorem solveInPlaceM_singular (eps : K) (a b : Dense K) (n m : ℕ) (A B : ℕ → ℕ → K) (ha : Is a n n A) (hb : Is b n m B)
    (hdep : RowsDependent n A) :
    solveInPlaceM eps a b = .exn (.mml "SingularMatrixError") ∨
    solveInPlaceM eps a b = .exn (.mml "MatrixNumericalError") := by
  have hn : n ≠ 0 := by obtain ⟨_, ⟨k, hk, _⟩, _⟩ := hdep; omega
  obtain ⟨h1, h2, h3⟩ := solveInPlaceM_solves eps a b ha.1 hb.1 (by rw [ha.2.1, ha.2.2.1]) (by rw [ha.2.1, hb.2.1])
  obtain ⟨hs, rfl⟩ := Dense.is_unique.1 ha
  cases h : solveInPlaceM eps (ofFn n n A) b with
  | ub => exact absurd h h1
  | exn e =>
    rcases h2 e h with rfl | rfl | ⟨_, h0⟩
    · exact Or.inl rfl
    · exact Or.inr rfl
    · exact absurd h0 hn
  | ret p =>
    exfalso
    obtain ⟨hs', rfl⟩ := Dense.is_unique.1 hb
    have hm : m ≠ 0 := by rcases hs' with h | h <;> omega
    rw [solveInPlaceM_ofFn A B eps hn hm] at h
    have hg := Outcome.sat_iff.1 (gaussJordan_sat (n := n) (m := m) A B (.exn (.mml "MatrixNumericalError")) eps
      (fun _ => True) (fun _ _ _ _ => trivial) (fun _ => trivial))
    obtain ⟨R, X, _, hR, _⟩ := hg.2.2 _ h
    exact not_dependent (V := R) hR hdep

/-- **C37 (Gauss-Jordan).**  A matrix that is far enough from singular is solved. -/
theorem solveInPlaceM_accepts (eps : K) (heps : 0 < eps) (a b : Dense K) (n m : ℕ) (A B V : ℕ → ℕ → K) (hn : 0 < n)
    (ha : Is a n n A) (hb : Is b n m B) (hA : WellConditioned eps n A V) :
    ∃ a' x, solveInPlaceM eps a b = .ret (a', x) := by
  obtain ⟨hs, rfl⟩ := Dense.is_unique.1 ha
  obtain ⟨hs', rfl⟩ := Dense.is_unique.1 hb
  have hm : m ≠ 0 := by rcases hs' with h | h <;> omega
  rw [solveInPlaceM_ofFn A B eps (by omega) hm]
  have hg := Outcome.sat_iff.1 (gaussJordan_sat (n := n) (m := m) A B (.exn (.mml "MatrixNumericalError")) eps
      (fun _ => False) (fun norm h0 hle hnear => hA.not_near heps.le norm h0 hle hnear) (fun hz => by
        refine (not_dependent hA.1 ⟨fun _ => 1, ⟨0, hn, one_ne_zero⟩, fun c hc => ?_⟩).elim
        exact Finset.sum_eq_zero fun k hk => by rw [hz heps k (Finset.mem_range.1 hk) c hc, mul_zero]))
  cases h : gaussJordan (.exn (.mml "MatrixNumericalError")) eps (ofFn n n A) (ofFn n m B) with
  | ub => exact absurd h hg.1
  | exn e => exact (hg.2.1 e h).elim
  | ret p => exact ⟨p.1, p.2, rfl⟩

/-- **C37 (refusals).**  Systems whose sizes do not match are refused: a matrix that is not square or is empty, a
right-hand side that is empty or has another number of rows. -/
theorem solveInPlace_refuses (eps : K) (a b : Dense K) (v : List K) :
    ((a.rows ≠ a.cols ∨ a.rows = 0 ∨ b.rows = 0 ∨ b.cols = 0 ∨ b.rows ≠ a.rows) →
      solveInPlaceM eps a b = .exn (.mml "MatrixDimensionError")) ∧
    ((a.rows ≠ a.cols ∨ a.rows = 0 ∨ v.length ≠ a.rows) →
      solveInPlaceV eps a v = .exn (.mml "MatrixDimensionError")) := by
  constructor
  · intro h
    rw [solveInPlaceM]
    split
    · rfl
    split
    · rfl
    split
    · rfl
    rw [if_pos (by omega)]
  · intro h
    rw [solveInPlaceV]
    split
    · rfl
    split
    · rfl
    rw [if_pos (by omega)]

example : solveInPlaceM (1 / 1000 : ℚ) ⟨2, 2, [1, 0, 0, 1]⟩ ⟨1, 1, [5]⟩ = .exn (.mml "MatrixDimensionError") :=
  (solveInPlace_refuses _ _ _ []).1 (by decide)

/-- **C37 (Gauss-Jordan, one right-hand side).**  The vector form: if it returns, `A * x = b`. -/
theorem solveInPlaceV_solves (eps : K) (a : Dense K) (b : List K) (ha : Valid a) :
    solveInPlaceV eps a b ≠ .ub ∧
    (∀ e, solveInPlaceV eps a b = .exn e → e = .mml "SingularMatrixError" ∨ e = .mml "MatrixNumericalError" ∨
      (e = .mml "MatrixDimensionError" ∧ (a.rows ≠ a.cols ∨ a.rows ≠ b.length ∨ b = []))) ∧
    ∀ a' x, solveInPlaceV eps a b = .ret (a', x) →
      a.mulVec x = .ret b ∧ ∃ e, a.mul a' = .ret e ∧ Is e a.rows a.rows (δ K) := by
  rw [solveInPlaceV]
  by_cases h1 : a.rows ≠ a.cols
  · rw [if_pos h1]
    refine ⟨by simp, ?_, by simp⟩
    intro e he
    cases he
    exact Or.inr (Or.inr ⟨rfl, Or.inl h1⟩)
  rw [if_neg h1]
  by_cases h2 : a.rows ≠ b.length
  · rw [if_pos h2]
    refine ⟨by simp, ?_, by simp⟩
    intro e he
    cases he
    exact Or.inr (Or.inr ⟨rfl, Or.inr (Or.inl h2)⟩)
  rw [if_neg h2]
  by_cases h3 : b.length = 0
  · rw [if_pos h3]
    refine ⟨by simp, ?_, by simp⟩
    intro e he
    cases he
    exact Or.inr (Or.inr ⟨rfl, Or.inr (Or.inr (List.length_eq_zero_iff.1 h3))⟩)
  rw [if_neg h3]
  push Not at h1 h2
  obtain ⟨n, n', A, hs, rfl⟩ := ha.exists_ofFn
  simp only [Dense.ofFn_rows, Dense.ofFn_cols] at h1 h2
  subst h1
  obtain ⟨B, rfl⟩ : ∃ B, b = tab n B := ⟨_, h2 ▸ eq_tab b 0⟩
  rw [length_tab] at h3
  have hs' := shape_col hs h3
  rw [columnMatrix_tab hs', Outcome.bind_ret, solveInPlaceM_ofFn A _ eps h3 (by omega)]
  have h := gaussJordan_sat (n := n) (m := 1) A (fun i _ => B i) (.exn (.mml "MatrixNumericalError")) eps
    (fun e => e = .mml "SingularMatrixError" ∨ e = .mml "MatrixNumericalError" ∨
      (e = .mml "MatrixDimensionError" ∧
        ((ofFn n n A).rows ≠ (ofFn n n A).cols ∨ (ofFn n n A).rows ≠ (tab n B).length ∨ tab n B = [])))
    (fun _ _ _ _ => Or.inl rfl) (fun _ => Or.inr (Or.inl rfl))
  have h' := Outcome.sat_iff.1 (h.bind (f := fun ab => do
      let x ← ab.2.colVector 0
      .ret (ab.1, x)) (P := fun p => (ofFn n n A).mulVec p.2 = .ret (tab n B) ∧
        ∃ e, (ofFn n n A).mul p.1 = .ret e ∧ Is e n n (δ K)) (by
    rintro _ ⟨R, X, rfl, hR, hX⟩
    have e := Dense.colVector_ofFn (r := n) (c := 1) X (j := 0) (by omega)
    simp only [Nat.cast_zero] at e
    simp only
    rw [e, Outcome.bind_ret]
    refine ⟨?_, _, Dense.mul_ofFn hs A R, ?_⟩
    · rw [Dense.mulVec_ofFn]
      congr 1
      exact tab_congr fun i hi => hX i hi 0 (by omega)
    · refine Dense.is_unique.2 ⟨hs, Dense.ofFn_congr fun r hr c hc => ?_⟩
      rw [hR r hr c hc]
      rfl))
  exact ⟨h'.1, h'.2.1, fun a' x hx => h'.2.2 _ hx⟩

/-- **C37 (Gauss-Jordan, one right-hand side).**  Singular matrices are refused, well-conditioned ones solved. -/
theorem solveInPlaceV_decides (eps : K) (a : Dense K) (n : ℕ) (A V : ℕ → ℕ → K) (b : ℕ → K) (hn : 0 < n)
    (ha : Is a n n A) :
    (RowsDependent n A → solveInPlaceV eps a (tab n b) = .exn (.mml "SingularMatrixError") ∨
      solveInPlaceV eps a (tab n b) = .exn (.mml "MatrixNumericalError")) ∧
    (0 < eps → WellConditioned eps n A V → ∃ a' x, solveInPlaceV eps a (tab n b) = .ret (a', x)) := by
  have hs := (Dense.is_unique.1 ha).1
  have hs' := shape_col hs (by omega)
  have e : solveInPlaceV eps a (tab n b) = (solveInPlaceM eps a (ofFn n 1 fun i _ => b i) >>= fun ab => do
      let x ← ab.2.colVector 0
      .ret (ab.1, x)) := by
    rw [solveInPlaceV, if_neg (by rw [ha.2.1, ha.2.2.1]; simp), if_neg (by rw [ha.2.1]; simp),
      if_neg (by rw [length_tab]; omega), columnMatrix_tab hs', Outcome.bind_ret]
  rw [e]
  refine ⟨fun hd => ?_, fun heps hw => ?_⟩
  · rcases solveInPlaceM_singular eps a _ n 1 A _ ha (Dense.is_ofFn hs' (fun i _ => b i)) hd with h | h <;>
      rw [h] <;> simp
  · obtain ⟨a', x, h⟩ := solveInPlaceM_accepts eps heps a _ n 1 A _ V hn ha (Dense.is_ofFn hs' (fun i _ => b i)) hw
    have h2 := (solveInPlaceM_solves eps a _ ha.1 (Dense.valid_ofFn hs' (fun i _ => b i))
      (by rw [ha.2.1, ha.2.2.1]) (by rw [ha.2.1]; rfl)).2.2 a' x h
    obtain ⟨hs, rfl⟩ := Dense.is_unique.1 ha
    have hmul := h2.2.1
    obtain ⟨r, c, X, hsx, rfl⟩ := h2.1.exists_ofFn
    have hr : n = r := by
      by_contra hne
      rw [Dense.mul, if_pos (by simpa using hne)] at hmul
      cases hmul
    subst hr
    have hc : 0 < c := by rcases hsx with hx | hx <;> omega
    rw [h, Outcome.bind_ret]
    have e2 := Dense.colVector_ofFn (r := n) (c := c) X (j := 0) hc
    simp only [Nat.cast_zero] at e2
    rw [e2, Outcome.bind_ret]
    exact ⟨_, _, rfl⟩

/-! ## Inverting -/

omit [IsStrictOrderedRing K] in
theorem invert_ofFn {n : ℕ} (A : ℕ → ℕ → K) (eps : K) :
    invert eps (ofFn n n A) = (gaussJordan .ub eps (ofFn n n A) (ofFn n 0 fun _ _ => 0) >>= fun ab => .ret ab.1) := by
  rw [invert, if_neg (by simp)]
  rfl

/-- **C38.**  `Invert` of a square matrix that is not the zero matrix has no undefined behaviour and throws nothing
but the announced exception; if it returns, the products with the original in both orders are the identity. -/
theorem invert_correct_partial (eps : K) (heps : 0 < eps) (a : Dense K) (n : ℕ) (A : ℕ → ℕ → K) (ha : Is a n n A)
    (hne : ∃ r < n, ∃ c < n, A r c ≠ 0) :
    invert eps a ≠ .ub ∧
    (∀ e, invert eps a = .exn e → e = .mml "SingularMatrixError") ∧
    ∀ v, invert eps a = .ret v → Valid v ∧
      (∃ e, a.mul v = .ret e ∧ Is e n n (δ K)) ∧ ∃ e, v.mul a = .ret e ∧ Is e n n (δ K) := by
  obtain ⟨hs, rfl⟩ := Dense.is_unique.1 ha
  rw [invert_ofFn]
  have h := gaussJordan_sat (n := n) (m := 0) A (fun _ _ => 0) .ub eps
    (fun e => e = .mml "SingularMatrixError") (fun _ _ _ _ => rfl) (fun hz => by
      obtain ⟨r, hr, c, hc, hA⟩ := hne
      exact (hA (hz heps r hr c hc)).elim)
  have h' := Outcome.sat_iff.1 (h.bind (f := fun ab => .ret ab.1) (P := fun v => Valid v ∧
      (∃ e, (ofFn n n A).mul v = .ret e ∧ Is e n n (δ K)) ∧ ∃ e, v.mul (ofFn n n A) = .ret e ∧ Is e n n (δ K)) (by
    rintro _ ⟨R, X, rfl, hR, _⟩
    refine ⟨Dense.valid_ofFn hs R, ⟨_, Dense.mul_ofFn hs A R, ?_⟩, _, Dense.mul_ofFn hs R A, ?_⟩
    · refine Dense.is_unique.2 ⟨hs, Dense.ofFn_congr fun r hr c hc => ?_⟩
      rw [hR r hr c hc]
      rfl
    · refine Dense.is_unique.2 ⟨hs, Dense.ofFn_congr fun r hr c hc => ?_⟩
      rw [right_inverse hR r hr c hc]
      rfl))
  exact h'

/-- **C38.**  A singular matrix other than zero is refused, a well-conditioned matrix is inverted, and a matrix that
is not square is refused. -/
theorem invert_decides (eps : K) (heps : 0 < eps) (a : Dense K) (n : ℕ) (A V : ℕ → ℕ → K) (ha : Is a n n A) :
    (RowsDependent n A → (∃ r < n, ∃ c < n, A r c ≠ 0) → invert eps a = .exn (.mml "SingularMatrixError")) ∧
    (0 < n → WellConditioned eps n A V → ∃ v, invert eps a = .ret v) := by
  obtain ⟨hs, rfl⟩ := Dense.is_unique.1 ha
  refine ⟨fun hd hne => ?_, fun hn hw => ?_⟩
  · obtain ⟨h1, h2, h3⟩ := invert_correct_partial eps heps (ofFn n n A) n A ha hne
    cases h : invert eps (ofFn n n A) with
    | ub => exact absurd h h1
    | exn e => rw [h2 e h]
    | ret v =>
      exfalso
      rw [invert_ofFn] at h
      have hg := Outcome.sat_iff.1 ((gaussJordan_sat (n := n) (m := 0) A (fun _ _ => 0) .ub eps
        (fun _ => True) (fun _ _ _ _ => trivial) (fun hz => by
          obtain ⟨r, hr, c, hc, hA⟩ := hne
          exact (hA (hz heps r hr c hc)).elim)).bind (f := fun ab => .ret ab.1) (P := fun _ => False) (by
            rintro _ ⟨R, X, _, hR, _⟩
            exact not_dependent (V := R) hR hd))
      exact hg.2.2 v h
  · rw [invert_ofFn]
    have hg := (gaussJordan_sat (n := n) (m := 0) A (fun _ _ => 0) .ub eps
      (fun _ => False) (fun norm h0 hle hnear => hw.not_near heps.le norm h0 hle hnear) (fun hz => by
        refine (not_dependent hw.1 ⟨fun _ => 1, ⟨0, hn, one_ne_zero⟩, fun c hc => ?_⟩).elim
        exact Finset.sum_eq_zero fun k hk => by rw [hz heps k (Finset.mem_range.1 hk) c hc, mul_zero]))
    cases h : gaussJordan .ub eps (ofFn n n A) (ofFn n 0 fun _ _ => 0) with
    | ub => rw [h] at hg; exact hg.elim
    | exn e => rw [h] at hg; exact hg.elim
    | ret p => exact ⟨p.1, rfl⟩

omit [IsStrictOrderedRing K] in
/-- **C38.**  A matrix that is not square is refused. -/
theorem invert_not_square (eps : K) (a : Dense K) (h : a.rows ≠ a.cols) :
    invert eps a = .exn (.mml "MatrixDimensionError") := by rw [invert, if_pos h]

/-- **C38, disagreement.**  The zero matrix is singular but `Invert` does not report it: the threshold is zero, the
zero pivot is not below it, and the code divides by zero. -/
theorem invert_zero_not_reported : ¬ ∀ (a : Dense ℚ) (n : ℕ) (A : ℕ → ℕ → ℚ), Is a n n A → RowsDependent n A →
    invert (1 / 4503599627370496 : ℚ) a = .exn (.mml "SingularMatrixError") := by
  intro h
  have hs : Shape 1 1 := Or.inr (by omega)
  have := h _ 1 (fun _ _ => 0) (Dense.is_ofFn hs _) ⟨fun _ => 1, ⟨0, by omega, one_ne_zero⟩, by simp⟩
  revert this
  decide +kernel

/-! ## The hypotheses are met -/

/-- A matrix that needs a row exchange. -/
def exA : Dense ℚ := ⟨2, 2, [0, 2, 4, 0]⟩

example : Valid exA := ⟨rfl, Or.inr (by decide)⟩
example : solveInPlaceV (1 / 1000 : ℚ) exA [6, 8] = .ret (⟨2, 2, [0, 1 / 4, 1 / 2, 0]⟩, [2, 3]) := by decide +kernel
example : solveInPlaceM (1 / 1000 : ℚ) exA ⟨2, 1, [6, 8]⟩ = .ret (⟨2, 2, [0, 1 / 4, 1 / 2, 0]⟩, ⟨2, 1, [2, 3]⟩) := by
  decide +kernel
example : invert (1 / 1000 : ℚ) exA = .ret ⟨2, 2, [0, 1 / 4, 1 / 2, 0]⟩ := by decide +kernel
example : invert (1 / 1000 : ℚ) ⟨2, 2, [1, 2, 2, 4]⟩ = .exn (.mml "SingularMatrixError") := by decide +kernel
example : RowsDependent 2 (fun i j => ((i : ℚ) + 1) * (j + 1)) :=
  ⟨fun k => if k = 0 then 2 else -1, ⟨0, by decide, by norm_num⟩, fun c _ => by
    simp [Finset.sum_range_succ]; ring⟩
example : WellConditioned (1 / 1000 : ℚ) 2 (fun i j => if i = j then 0 else 2) (fun i j => if i = j then 0 else 1 / 2) := by
  refine ⟨?_, 2, by norm_num, ?_, ?_⟩
  · intro r hr c hc
    interval_cases r <;> interval_cases c <;> simp [Finset.sum_range_succ, δ]
  · intro r hr c hc
    beta_reduce; split <;> simp
  · intro j hj
    interval_cases j <;> norm_num [Finset.sum_range_succ]

end Verif.LinAlg
