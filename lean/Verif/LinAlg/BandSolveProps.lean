import Verif.LinAlg.BandSolveCore
import Verif.LinAlg.GJProps
import Mathlib.Tactic.IntervalCases

/-!
# Properties of `BandDiagonalSolver` (C39)
-/

set_option autoImplicit false

namespace Verif.LinAlg.BandLU

open Verif.Mat
open Verif.Mat.Band (Valid Is)

variable {K : Type} [Field K] [LinearOrder K] [IsStrictOrderedRing K]

/-- `V` is the inverse of `A`, every row sum of `|A|` is at most `M`, and `A` is far enough from singular: the threshold
`eps * M * n` times every row sum of `|V|` is at most one. -/
def WellConditioned (eps : K) (n : ℕ) (A V : ℕ → ℕ → K) (M : K) : Prop :=
  (∀ r < n, ∀ c < n, ∑ k ∈ Finset.range n, A r k * V k c = δ K r c) ∧
  (∀ r < n, ∑ c ∈ Finset.range n, |A r c| ≤ M) ∧
  ∀ i < n, eps * M * n * ∑ r ∈ Finset.range n, |V i r| ≤ 1

/-! ## Lemmas -/

theorem WellConditioned.not_near {eps : K} {n : ℕ} {A V : ℕ → ℕ → K} {M : K}
    (h : WellConditioned eps n A V M) : ¬ LU.ColNear n A (eps * M * n) := by
  obtain ⟨hV, _, hrow⟩ := h
  rintro ⟨v, ⟨j, hj, hvj⟩, hv⟩
  have hVA := right_inverse (A := V) (R := A) (fun r hr c hc => hV r hr c hc)
  have hcancel := mul_cancel (A := V) (R := A) (B := fun k _ => v k) (X := fun r _ => ∑ c ∈ Finset.range n, A r c * v c)
    (m := 1) hVA (fun r _ c _ => rfl) j hj 0 (by omega)
  have h1 : |v j| ≤ ∑ r ∈ Finset.range n, |V j r| * |∑ c ∈ Finset.range n, A r c * v c| := by
    rw [← hcancel]
    refine (Finset.abs_sum_le_sum_abs _ _).trans (le_of_eq (Finset.sum_congr rfl fun c _ => abs_mul _ _))
  have hex : ∃ r ∈ Finset.range n, V j r ≠ 0 := by
    by_contra hne
    push Not at hne
    rw [Finset.sum_eq_zero fun r hr => by rw [hne r hr, abs_zero, zero_mul], hvj, abs_one] at h1
    exact absurd h1 (not_le.2 one_pos)
  have h2 : ∑ r ∈ Finset.range n, |V j r| * |∑ c ∈ Finset.range n, A r c * v c| <
      ∑ r ∈ Finset.range n, |V j r| * (eps * M * n) := by
    obtain ⟨r, hr, hne⟩ := hex
    exact Finset.sum_lt_sum (fun r hr => mul_le_mul_of_nonneg_left (hv r (Finset.mem_range.1 hr)).le (abs_nonneg _))
      ⟨r, hr, mul_lt_mul_of_pos_left (hv r (Finset.mem_range.1 hr)) (abs_pos.2 hne)⟩
  rw [← Finset.sum_mul, mul_comm (∑ r ∈ Finset.range n, |V j r|)] at h2
  rw [hvj, abs_one] at h1
  exact absurd (h1.trans_lt (h2.trans_le (hrow j hj))) (lt_irrefl _)

theorem valid_pos {m : Band K} (h : Valid m) : 0 < m.dim ∧ Dense.Shape m.dim (m.m1 + m.m2 + 1) := by
  obtain ⟨⟨_, hs⟩, hr, hc⟩ := h
  rw [hr, hc] at hs
  refine ⟨?_, hs⟩
  rcases hs with h | h <;> omega

/-- `A` has an element that is not zero. -/
def NonZero (n : ℕ) (A : ℕ → ℕ → K) : Prop := ∃ i < n, ∃ j < n, A i j ≠ 0

theorem new_cases (eps : K) (heps : 0 < eps) (a : Band K) (n : ℕ) (A : ℕ → ℕ → K) (ha : Is a n A) (hm : a.m1 ≤ n)
    (hA : NonZero n A) : new eps a = .exn (.mml "SingularMatrixError") ∨
      ∃ s, new eps a = .ret s ∧ Decomp n a.m1 a.m2 A s := by
  obtain ⟨hv, rfl, hg⟩ := ha
  have h := new_sat eps heps a.data A hg (valid_pos hv).2 hm hA (fun e => e = .mml "SingularMatrixError") (fun _ => rfl)
  cases hc : new eps a with
  | ub => rw [hc] at h; exact h.elim
  | exn e => rw [hc] at h; exact Or.inl (congrArg _ h)
  | ret s => rw [hc] at h; exact Or.inr ⟨s, rfl, h⟩

theorem decomp {eps : K} (heps : 0 < eps) {a : Band K} {n : ℕ} {A : ℕ → ℕ → K} (ha : Is a n A) (hm : a.m1 ≤ n)
    (hA : NonZero n A) {s : BandLU K} (hs : new eps a = .ret s) : Decomp n a.m1 a.m2 A s := by
  rcases new_cases eps heps a n A ha hm hA with h | ⟨s', h, h'⟩
  · rw [h] at hs; cases hs
  · rw [h] at hs; cases hs; exact h'

theorem Decomp.dim {n m1 m2 : ℕ} {A : ℕ → ℕ → K} {s : BandLU K} (h : Decomp n m1 m2 A s) : s.n = n := by
  obtain ⟨f, g, N, jx, d, hN, rfl, hinv⟩ := h
  rfl

theorem Decomp.inverse {n m1 m2 : ℕ} {A : ℕ → ℕ → K} {s : BandLU K} (hm : m1 ≤ n) (h : Decomp n m1 m2 A s) :
    ∃ V : ℕ → ℕ → K, ∀ r < n, ∀ c < n, ∑ k ∈ Finset.range n, A r k * V k c = δ K r c := by
  obtain ⟨X, _, _, hX⟩ := solveM_spec (m := n) hm h (δ K) (fun _ _ => 0)
  exact ⟨X, hX⟩

/-! ## The constructor -/

/-- **C39 (band).**  Constructing the solver from a consistent matrix that is not zero and has at most as many
subdiagonals as rows never has undefined behaviour: it succeeds or reports a singular matrix. -/
theorem new_outcomes (eps : K) (heps : 0 < eps) (a : Band K) (n : ℕ) (A : ℕ → ℕ → K) (ha : Is a n A) (hm : a.m1 ≤ n)
    (hA : NonZero n A) : new eps a = .exn (.mml "SingularMatrixError") ∨ ∃ s, new eps a = .ret s :=
  (new_cases eps heps a n A ha hm hA).imp id fun ⟨s, h, _⟩ => ⟨s, h⟩

/-- **C39 (band).**  A singular matrix other than zero is never accepted, and a matrix that is far enough from singular
always is. -/
theorem new_decides (eps : K) (heps : 0 < eps) (a : Band K) (n : ℕ) (A : ℕ → ℕ → K) (ha : Is a n A) (hm : a.m1 ≤ n) :
    (RowsDependent n A → NonZero n A → new eps a = .exn (.mml "SingularMatrixError")) ∧
    (∀ V M, WellConditioned eps n A V M → ∃ s, new eps a = .ret s) := by
  refine ⟨fun hdep hA => ?_, fun V M hw => ?_⟩
  · rcases new_cases eps heps a n A ha hm hA with h | ⟨s, _, h⟩
    · exact h
    · obtain ⟨V, hV⟩ := h.inverse hm
      exact absurd hdep (not_dependent hV)
  · obtain ⟨hv, rfl, hg⟩ := ha
    have hpos := (valid_pos hv).1
    have hA : NonZero a.dim A := by
      by_contra hne
      have h0 : ∀ i < a.dim, ∀ j < a.dim, A i j = 0 := by
        intro i hi j hj
        by_contra h
        exact hne ⟨i, hi, j, hj, h⟩
      have := hw.1 0 hpos 0 hpos
      rw [Finset.sum_eq_zero fun k hk => by rw [h0 0 hpos k (Finset.mem_range.1 hk), zero_mul], δ, if_pos rfl] at this
      exact zero_ne_one this
    have h := new_sat eps heps a.data A hg (valid_pos hv).2 hm hA (fun _ => False) (fun hnear => hw.not_near (hnear M hw.2.1))
    cases hc : new eps a with
    | ub => rw [hc] at h; exact h.elim
    | exn e => rw [hc] at h; exact h.elim
    | ret s => exact ⟨s, rfl⟩

/-- **C39 (band), disagreement.**  The zero matrix is singular, but is not reported: its threshold is zero and the
first round divides by zero. -/
theorem new_zero_not_reported (eps : K) (a : Band K) (n : ℕ) (ha : Is a n (fun _ _ => 0)) (hm : a.m1 ≤ n) (h1 : 0 < a.m1)
    (h2 : 2 ≤ n) : new eps a = .ub := by
  obtain ⟨hv, rfl, hg⟩ := ha
  exact new_zero eps a.data hg (valid_pos hv).2 hm h1 h2

/-- **C39 (band), disagreement.**  A matrix object may have more subdiagonals than rows; the solver then writes outside
its storage. -/
theorem new_wide_ub (eps : K) (a : Band K) (ha : Valid a) (hm : a.dim < a.m1) : new eps a = .ub := by
  obtain ⟨A, hv, _, hg⟩ := Band.get_total a ha
  exact new_wide eps a.data A hg (valid_pos hv).2 hm

/-! ## Solving -/

/-- **C39 (band).**  `Solve(b)` with a successfully constructed solver returns, any number of times and for any
right-hand side of the right length, the `x` with `A * x = b`; a wrong length is refused. -/
theorem solve_solves (eps : K) (heps : 0 < eps) (a : Band K) (n : ℕ) (A : ℕ → ℕ → K) (ha : Is a n A) (hm : a.m1 ≤ n)
    (hA : NonZero n A) (s : BandLU K) (hs : new eps a = .ret s) (b : List K) :
    (b.length = n → ∃ x, s.solve b = .ret x ∧ a.mulVec x = .ret b) ∧
    (b.length ≠ n → s.solve b = .exn (.mml "VectorDimensionError")) := by
  have hd := decomp heps ha hm hA hs
  refine ⟨fun hb => ?_, fun hb => ?_⟩
  · obtain ⟨B, rfl⟩ : ∃ B, b = tab n B := ⟨_, hb ▸ eq_tab b 0⟩
    obtain ⟨x, hx, hx'⟩ := solveInto_spec hm hd B (fun _ => 0)
    refine ⟨tab n x, ?_, ?_⟩
    · rw [solve, hd.dim, replicate_eq_tab, hx, Outcome.bind_ret, if_pos rfl]
    · rw [Band.mulVec_spec a n A ha]
      congr 1
      exact tab_congr fun r hr => hx' r hr
  · rw [solve, solveInto, if_pos (Or.inl (by rw [hd.dim]; exact hb)), Outcome.bind_ret, if_neg (by simp)]

/-- **C39 (band).**  `bool Solve(b, x)`: true exactly when both vectors have the right length, `x` is then the solution
whatever it held before, and is otherwise left alone. -/
theorem solveInto_solves (eps : K) (heps : 0 < eps) (a : Band K) (n : ℕ) (A : ℕ → ℕ → K) (ha : Is a n A) (hm : a.m1 ≤ n)
    (hA : NonZero n A) (s : BandLU K) (hs : new eps a = .ret s) (b x : List K) :
    ((b.length = n ∧ x.length = n) → ∃ x', s.solveInto b x = .ret (true, x') ∧ a.mulVec x' = .ret b) ∧
    (¬ (b.length = n ∧ x.length = n) → s.solveInto b x = .ret (false, x)) := by
  have hd := decomp heps ha hm hA hs
  refine ⟨fun ⟨hb, hx⟩ => ?_, fun hb => ?_⟩
  · obtain ⟨B, rfl⟩ : ∃ B, b = tab n B := ⟨_, hb ▸ eq_tab b 0⟩
    obtain ⟨X, rfl⟩ : ∃ B, x = tab n B := ⟨_, hx ▸ eq_tab x 0⟩
    obtain ⟨x, hx, hx'⟩ := solveInto_spec hm hd B X
    refine ⟨tab n x, hx, ?_⟩
    rw [Band.mulVec_spec a n A ha]
    congr 1
    exact tab_congr fun r hr => hx' r hr
  · rw [solveInto, if_pos (by rw [hd.dim]; tauto)]

/-- **C39 (band).**  `Solve(B)` for a matrix: every column of the result solves the system with the corresponding
column of `B`; a wrong number of rows is refused. -/
theorem solveM_solves (eps : K) (heps : 0 < eps) (a : Band K) (n : ℕ) (A : ℕ → ℕ → K) (ha : Is a n A) (hm : a.m1 ≤ n)
    (hA : NonZero n A) (s : BandLU K) (hs : new eps a = .ret s) (b : Dense K) (hb : Dense.Valid b) :
    (b.rows = n → ∃ x, s.solveM b = .ret x ∧ Dense.Valid x ∧ x.cols = b.cols ∧
      ∀ j < b.cols, ∃ u v, x.colVector j = .ret u ∧ b.colVector j = .ret v ∧ a.mulVec u = .ret v) ∧
    (b.rows ≠ n → s.solveM b = .exn (.mml "MatrixDimensionError")) := by
  have hd := decomp heps ha hm hA hs
  obtain ⟨n', m, B, hsb, rfl⟩ := hb.exists_ofFn
  simp only [Dense.ofFn_rows, Dense.ofFn_cols]
  refine ⟨fun hr => ?_, fun hr => ?_⟩
  · subst hr
    obtain ⟨X, v, hX, hX'⟩ := solveM_spec (m := m) hm hd B (fun _ _ => 0)
    refine ⟨Dense.ofFn n' m X, ?_, Dense.valid_ofFn hsb X, rfl, fun j hj => ⟨_, _,
      Dense.colVector_ofFn X hj, Dense.colVector_ofFn B hj, ?_⟩⟩
    · rw [solveM, hd.dim, if_neg (by simp)]
      simp only [Dense.ofFn_cols]
      rw [Dense.new_spec hsb, Outcome.bind_ret, hX, Outcome.bind_ret]
    · rw [Band.mulVec_spec a n' A ha]
      congr 1
      exact tab_congr fun r hr => hX' r hr j hj
  · rw [solveM, hd.dim, if_pos (by simpa using hr)]

/-- **C39 (band).**  `Det()` is the determinant of the matrix. -/
theorem det_correct (eps : K) (heps : 0 < eps) (a : Band K) (n : ℕ) (A : ℕ → ℕ → K) (ha : Is a n A) (hm : a.m1 ≤ n)
    (hA : NonZero n A) (s : BandLU K) (hs : new eps a = .ret s) :
    s.det = .ret (Matrix.det (Matrix.of fun i j : Fin n => A i j)) :=
  det_spec (decomp heps ha hm hA hs)

/-! ## The hypotheses are met -/

/-- The matrix `[[0, 2, 0], [4, 1, 1], [0, 1, 3]]`. -/
def exB : Band ℚ := ⟨3, 1, 1, ⟨3, 3, [0, 0, 2, 4, 1, 1, 1, 3, 0]⟩⟩

example : Valid exB := ⟨⟨rfl, Or.inr (by decide)⟩, rfl, rfl⟩
example : (new (1 / 1000) exB >>= fun s => s.solve [4, 9, 11]) = .ret [1, 2, 3] := by decide +kernel
example : (new (1 / 1000) exB >>= fun s => s.solveInto [4, 9, 11] [7, 7, 7]) = .ret (true, [1, 2, 3]) := by decide +kernel
example : (new (1 / 1000) exB >>= fun s => s.solveM ⟨3, 1, [4, 9, 11]⟩) = .ret ⟨3, 1, [1, 2, 3]⟩ := by decide +kernel
example : (new (1 / 1000) exB >>= fun s => s.det) = .ret (-24) := by decide +kernel
example : Valid (⟨2, 1, 0, ⟨2, 2, [0, 0, 0, 0]⟩⟩ : Band ℚ) := ⟨⟨rfl, Or.inr (by decide)⟩, rfl, rfl⟩
example : Valid (⟨1, 2, 0, ⟨1, 3, [0, 0, 5]⟩⟩ : Band ℚ) := ⟨⟨rfl, Or.inr (by decide)⟩, rfl, rfl⟩
example : new (1 / 1000) (⟨1, 2, 0, ⟨1, 3, [0, 0, 5]⟩⟩ : Band ℚ) = .ub :=
  new_wide_ub _ _ ⟨⟨rfl, Or.inr (by decide)⟩, rfl, rfl⟩ (by decide)
example : WellConditioned (1 / 1000 : ℚ) 2 (fun i j => if i = j then 0 else 2) (fun i j => if i = j then 0 else 1 / 2) 2 := by
  refine ⟨?_, ?_, ?_⟩
  · intro r hr c hc
    interval_cases r <;> interval_cases c <;> simp [Finset.sum_range_succ, δ]
  · intro r hr
    interval_cases r <;> norm_num [Finset.sum_range_succ]
  · intro r hr
    interval_cases r <;> norm_num [Finset.sum_range_succ]

end Verif.LinAlg.BandLU
