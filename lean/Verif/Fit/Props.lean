import Verif.Fit.Lemmas
import Verif.Fit.Spec

/-!
# C107: the straight-line fit

`LinearLeastSquares` returns the best line, the residual norm it returns is the residual norm of that line, and it throws exactly
when the abscissas are clustered or the input is malformed.
-/

set_option autoImplicit false

namespace Verif.Fit

open Verif.LinAlg (divU)

/-! ## Lists and functions -/

theorem zip_tab (n : ℕ) (X Y : ℕ → ℝ) : (tab n X).zip (tab n Y) = tab n (fun i => (X i, Y i)) := by
  simp [tab, List.zip_map']

theorem sum_tab {α : Type} [AddCommMonoid α] (n : ℕ) (f : ℕ → α) : (tab n f).sum = ∑ i ∈ Finset.range n, f i := by
  induction n with
  | zero => rfl
  | succ n ih => rw [Finset.sum_range_succ, ← ih]; simp [tab, List.range_succ]

theorem map_tab {α β : Type} (n : ℕ) (f : ℕ → α) (g : α → β) : (tab n f).map g = tab n (fun i => g (f i)) := by
  simp [tab]

theorem sumSq_tab (n : ℕ) (X Y : ℕ → ℝ) (a b : ℝ) :
    sumSq (points (tab n X) (tab n Y)) a b = ∑ i ∈ Finset.range n, (Y i - (a * X i + b)) ^ 2 := by
  rw [sumSq, points, zip_tab, map_tab, sum_tab]

theorem exists_tabs (xs ys : List ℝ) (h : xs.length = ys.length) : ∃ X Y, xs = tab xs.length X ∧ ys = tab xs.length Y :=
  ⟨_, _, eq_tab xs 0, by rw [h]; exact eq_tab ys 0⟩

theorem clustered_tab (eps : ℝ) (n : ℕ) (X : ℕ → ℝ) : Clustered eps (tab n X) ↔
    |det n X| < eps * max |n * (∑ i ∈ Finset.range n, X i * X i)| |(∑ i ∈ Finset.range n, X i) * ∑ i ∈ Finset.range n, X i| := by
  rw [Clustered, sumXX, sumX, map_tab, sum_tab, sum_tab, length_tab, abs_of_nonneg (det_nonneg n X),
    abs_of_nonneg (mul_nonneg (Nat.cast_nonneg n) (Finset.sum_nonneg fun i _ => mul_self_nonneg (X i))),
    abs_of_nonneg (mul_self_nonneg _), det]
  simp only [sq]

theorem lineFit_many (eps : ℝ) (n : ℕ) (hn : 3 ≤ n) (X Y : ℕ → ℝ) :
    lineFit eps (tab n X) (tab n Y) = many eps n (tab n X) (tab n Y) := by
  rw [lineFit, length_tab, length_tab, if_neg (by simp), if_neg (by omega), if_neg (by omega), if_neg (by omega)]

theorem lineFit_one (eps : ℝ) (X Y : ℕ → ℝ) : lineFit eps (tab 1 X) (tab 1 Y) = .ret ⟨0, Y 0, 0⟩ := by
  rw [lineFit, length_tab, length_tab, if_neg (by simp), if_neg (by omega), if_pos rfl, index_tab Y (by omega), Outcome.bind_ret]

theorem lineFit_two (eps : ℝ) (X Y : ℕ → ℝ) : lineFit eps (tab 2 X) (tab 2 Y) =
    if |X 1 - X 0| < eps * 10 then .ret (twoFlat (Y 0) (Y 1))
    else if X 1 - X 0 = 0 then .ub
    else .ret ⟨(Y 1 - Y 0) / (X 1 - X 0), Y 0 - (Y 1 - Y 0) / (X 1 - X 0) * X 0, 0⟩ := by
  rw [lineFit, length_tab, length_tab, if_neg (by simp), if_neg (by omega), if_neg (by omega), if_pos rfl, two,
    index_tab X (by omega), index_tab Y (by omega), index_tab X (by omega), index_tab Y (by omega)]
  simp only [Outcome.bind_ret]
  by_cases h : |X 1 - X 0| < eps * 10
  · rw [if_pos h, if_pos h]
  · rw [if_neg h, if_neg h]
    by_cases h0 : X 1 - X 0 = 0
    · rw [if_pos h0, divU, if_pos h0]; rfl
    · rw [if_neg h0, divU_of_ne h0, Outcome.bind_ret]

/-! ## The exceptions -/

/-- The exceptions of `LinearLeastSquares`: a `CurveFittingError` for sequences of different lengths and for no data, a
`SingularMatrixError` for three or more points with clustered abscissas, and no other exception. -/
theorem lineFit_exn (eps : ℝ) (xs ys : List ℝ) (e : Exn) :
    lineFit eps xs ys = .exn e ↔
      (e = .mml "CurveFittingError" ∧ (xs.length ≠ ys.length ∨ xs = [])) ∨
      (e = .mml "SingularMatrixError" ∧ xs.length = ys.length ∧ 3 ≤ xs.length ∧ Clustered eps xs) := by
  by_cases hl : xs.length = ys.length
  swap
  · rw [lineFit, if_pos hl]
    simp [hl, errFit, eq_comm]
  obtain ⟨X, Y, hX, hY⟩ := exists_tabs xs ys hl
  generalize xs.length = n at hX hY hl
  subst hX
  rw [hY] at hl ⊢
  rw [length_tab] at hl
  have e1 : (tab n X = []) ↔ n = 0 := by rw [← List.length_eq_zero_iff, length_tab]
  simp only [length_tab, ne_eq, not_true_eq_false, e1, false_or, true_and]
  by_cases h0 : n = 0
  · subst h0
    rw [lineFit, length_tab, length_tab, if_neg (by simp), if_pos rfl]
    simp [errFit, eq_comm]
  by_cases h1 : n = 1
  · subst h1
    rw [lineFit_one]; simp
  by_cases h2 : n = 2
  · subst h2
    rw [lineFit_two]
    split_ifs <;> simp
  have h3 : 3 ≤ n := by omega
  have hcl := clustered_tab eps n X
  rw [lineFit_many eps n h3, many_tab]
  by_cases hc : Clustered eps (tab n X)
  · rw [if_pos (hcl.1 hc)]; simp [h0, h3, hc, errSing, eq_comm]
  · rw [if_neg (fun h => hc (hcl.2 h))]
    split_ifs <;> simp [h0, hc]

/-- Three or more points with one and the same abscissa, other than zero, are always reported as singular. -/
theorem lineFit_vertical (eps x : ℝ) (he : 0 < eps) (hx : x ≠ 0) (n : ℕ) (hn : 3 ≤ n) (ys : List ℝ) (hy : ys.length = n) :
    lineFit eps (List.replicate n x) ys = .exn (.mml "SingularMatrixError") := by
  rw [lineFit_exn]
  refine Or.inr ⟨rfl, by simp [hy], by simpa using hn, ?_⟩
  rw [Clustered, sumXX, sumX]
  have hn' : (0 : ℝ) < n := by exact_mod_cast (show 0 < n by omega)
  simp only [List.length_replicate, List.map_replicate, List.sum_replicate, nsmul_eq_mul]
  rw [show (n : ℝ) * (n * x ^ 2) - (n * x) ^ 2 = 0 by ring]
  apply mul_pos he
  apply lt_max_of_lt_left
  have : 0 < x ^ 2 := by positivity
  positivity

/-- With the abscissa zero the same data pass the test and lead to a division by zero: the documented exception is not thrown. -/
theorem lineFit_vertical_zero_wrong (eps : ℝ) (n : ℕ) (hn : 3 ≤ n) (ys : List ℝ) (hy : ys.length = n) :
    lineFit eps (List.replicate n 0) ys = .ub := by
  subst hy
  rw [replicate_eq_tab, eq_tab ys 0, length_tab, lineFit_many _ _ hn, many_tab]
  have : det ys.length (fun _ => 0) = 0 := by simp [det]
  rw [this, if_neg (by simp), if_pos rfl]

example : lineFit (1 / 2 ^ 52) [0, 0, 0] [1, 2, 3] = .ub := lineFit_vertical_zero_wrong _ 3 (by norm_num) _ rfl

/-- `LinearLeastSquares` returns a line for all data that are not malformed, clustered or, for three points or more, all at the
abscissa zero. -/
theorem lineFit_returns (eps : ℝ) (he : 0 < eps) (xs ys : List ℝ) (hl : xs.length = ys.length) (hx : xs ≠ [])
    (hc : 3 ≤ xs.length → ¬ Clustered eps xs ∧ ∃ x ∈ xs, x ≠ 0) : ∃ l, lineFit eps xs ys = .ret l := by
  obtain ⟨X, Y, hX, hY⟩ := exists_tabs xs ys hl
  have h0 : xs.length ≠ 0 := by simpa using hx
  generalize xs.length = n at hX hY hl hc h0
  subst hX
  rw [hY]
  by_cases h1 : n = 1
  · subst h1; exact ⟨_, lineFit_one eps X Y⟩
  by_cases h2 : n = 2
  · subst h2
    rw [lineFit_two]
    split_ifs with h h'
    · exact ⟨_, rfl⟩
    · rw [h', abs_zero] at h
      exact absurd (by positivity) h
    · exact ⟨_, rfl⟩
  have h3 : 3 ≤ n := by omega
  obtain ⟨hcl, x, hxm, hx0⟩ := hc h3
  rw [clustered_tab] at hcl
  rw [lineFit_many eps n h3, many_tab, if_neg hcl]
  split_ifs with hd
  · exfalso
    have hm := det_eq_zero h0 X hd
    set m := (∑ i ∈ Finset.range n, X i) / n with hmdef
    obtain ⟨i, hi, rfl⟩ : ∃ i < n, X i = x := by
      simpa [tab] using hxm
    rw [hm i hi] at hx0
    apply hcl
    rw [hd, abs_zero]
    apply mul_pos he
    apply lt_max_of_lt_right
    have hn' : (n : ℝ) ≠ 0 := by exact_mod_cast h0
    have : ∑ i ∈ Finset.range n, X i ≠ 0 := fun h => hx0 (by rw [hmdef, h, zero_div])
    exact abs_pos.2 (mul_ne_zero this this)
  · exact ⟨_, rfl⟩

/-! ## The best line -/

/-- Two different abscissas so close together that the code takes the points for a vertical line (CurveFitting.h:147). -/
def NearlyVertical (eps : ℝ) (xs : List ℝ) : Prop :=
  xs.length = 2 ∧ xs.getD 1 0 ≠ xs.getD 0 0 ∧ |xs.getD 1 0 - xs.getD 0 0| < eps * 10

theorem lineFit_orthogonal_aux (eps : ℝ) (n : ℕ) (X Y : ℕ → ℝ) (l : Line) (h : lineFit eps (tab n X) (tab n Y) = .ret l)
    (hv : ¬ NearlyVertical eps (tab n X)) :
    (∑ i ∈ Finset.range n, (Y i - (l.a * X i + l.b)) = 0) ∧ (∑ i ∈ Finset.range n, X i * (Y i - (l.a * X i + l.b)) = 0) := by
  by_cases h0 : n = 0
  · subst h0; simp
  by_cases h1 : n = 1
  · subst h1; rw [lineFit_one] at h
    obtain rfl := Outcome.ret.inj h
    simp
  by_cases h2 : n = 2
  · subst h2
    rw [lineFit_two] at h
    split_ifs at h with h3 h4
    · obtain rfl := Outcome.ret.inj h
      have : X 1 = X 0 := by
        by_contra hne
        apply hv
        refine ⟨by simp, ?_, ?_⟩
        · rw [getD_tab 2 X 0 (by omega), getD_tab 2 X 0 (by omega)]; exact hne
        · rw [getD_tab 2 X 0 (by omega), getD_tab 2 X 0 (by omega)]; exact h3
      simp only [twoFlat, Finset.sum_range_succ, Finset.range_zero, Finset.sum_empty, this]
      constructor <;> ring
    · obtain rfl := Outcome.ret.inj h
      simp only [Finset.sum_range_succ, Finset.range_zero, Finset.sum_empty]
      constructor <;> field_simp <;> ring
  have h3 : 3 ≤ n := by omega
  rw [lineFit_many eps n h3, many_tab] at h
  split_ifs at h with h4 h5
  obtain rfl := Outcome.ret.inj h
  exact normal h5

/-- The line `LinearLeastSquares` returns is as close to the points as any other line. -/
theorem lineFit_best (eps : ℝ) (xs ys : List ℝ) (l : Line) (h : lineFit eps xs ys = .ret l)
    (hv : ¬ NearlyVertical eps xs) : IsBest (points xs ys) l.a l.b := by
  have hl : xs.length = ys.length := by
    by_contra hl
    rw [lineFit, if_pos hl] at h; cases h
  obtain ⟨X, Y, hX, hY⟩ := exists_tabs xs ys hl
  generalize xs.length = n at hX hY hl
  subst hX
  rw [hY] at h ⊢
  obtain ⟨h1, h2⟩ := lineFit_orthogonal_aux eps n X Y l h hv
  intro c d
  rw [sumSq_tab, sumSq_tab, pythag h1 h2 c d]
  have : 0 ≤ ∑ i ∈ Finset.range n, ((l.a - c) * X i + (l.b - d)) ^ 2 := Finset.sum_nonneg fun i _ => sq_nonneg _
  linarith

example : ∃ l, lineFit (1 / 2 ^ 52) [0, 1, 2] [1, 0, 3] = .ret l ∧ IsBest [(0, 1), (1, 0), (2, 3)] l.a l.b := by
  obtain ⟨l, hl⟩ := lineFit_returns (1 / 2 ^ 52) (by norm_num) [0, 1, 2] [1, 0, 3] rfl (by simp)
    (fun _ => ⟨by simp [Clustered, sumXX, sumX]; norm_num, 1, by simp, by norm_num⟩)
  exact ⟨l, hl, lineFit_best _ _ _ l hl (by simp [NearlyVertical])⟩

/-- It is the only best line as soon as two abscissas differ. -/
theorem lineFit_unique (eps : ℝ) (xs ys : List ℝ) (l : Line) (h : lineFit eps xs ys = .ret l)
    (hv : ¬ NearlyVertical eps xs) (hd : ∃ x ∈ xs, ∃ x' ∈ xs, x ≠ x') (c d : ℝ) (hb : IsBest (points xs ys) c d) :
    c = l.a ∧ d = l.b := by
  have hl : xs.length = ys.length := by
    by_contra hl
    rw [lineFit, if_pos hl] at h; cases h
  obtain ⟨X, Y, hX, hY⟩ := exists_tabs xs ys hl
  generalize xs.length = n at hX hY hl
  subst hX
  rw [hY] at h hb
  obtain ⟨h1, h2⟩ := lineFit_orthogonal_aux eps n X Y l h hv
  have hp := pythag h1 h2 c d
  have hle := hb l.a l.b
  rw [sumSq_tab, sumSq_tab, hp] at hle
  have hz : ∑ i ∈ Finset.range n, ((l.a - c) * X i + (l.b - d)) ^ 2 = 0 :=
    le_antisymm (by linarith) (Finset.sum_nonneg fun i _ => sq_nonneg _)
  have hi : ∀ i < n, (l.a - c) * X i + (l.b - d) = 0 := fun i hi =>
    pow_eq_zero_iff two_ne_zero |>.1
      ((Finset.sum_eq_zero_iff_of_nonneg (fun i _ => sq_nonneg _)).1 hz i (Finset.mem_range.2 hi))
  obtain ⟨x, hx, x', hx', hne⟩ := hd
  obtain ⟨i, hi', rfl⟩ : ∃ i < n, X i = x := by simpa [tab] using hx
  obtain ⟨j, hj', rfl⟩ : ∃ i < n, X i = x' := by simpa [tab] using hx'
  have e1 := hi i hi'
  have e2 := hi j hj'
  have e3 : (l.a - c) * (X i - X j) = 0 := by linarith
  rcases mul_eq_zero.1 e3 with h0 | h0
  · rw [h0] at e1
    constructor <;> linarith
  · exact absurd (sub_eq_zero.1 h0) hne

/-- The value `LinearLeastSquares` returns is the norm of the residuals of the line it returns. -/
theorem lineFit_norm (eps : ℝ) (xs ys : List ℝ) (l : Line) (h : lineFit eps xs ys = .ret l) :
    l.norm = Real.sqrt (sumSq (points xs ys) l.a l.b) := by
  have hl : xs.length = ys.length := by
    by_contra hl
    rw [lineFit, if_pos hl] at h; cases h
  obtain ⟨X, Y, hX, hY⟩ := exists_tabs xs ys hl
  generalize xs.length = n at hX hY hl
  subst hX
  rw [hY] at h ⊢
  rw [sumSq_tab]
  by_cases h0 : n = 0
  · subst h0
    rw [lineFit, length_tab, length_tab, if_neg (by simp), if_pos rfl] at h
    cases h
  by_cases h1 : n = 1
  · subst h1; rw [lineFit_one] at h
    obtain rfl := Outcome.ret.inj h
    simp
  by_cases h2 : n = 2
  · subst h2
    rw [lineFit_two] at h
    split_ifs at h with h3 h4
    · obtain rfl := Outcome.ret.inj h
      simp only [twoFlat, Finset.sum_range_succ, Finset.range_zero, Finset.sum_empty]
      congr 1; ring
    · obtain rfl := Outcome.ret.inj h
      simp only [Finset.sum_range_succ, Finset.range_zero, Finset.sum_empty]
      symm
      rw [Real.sqrt_eq_zero']
      apply le_of_eq
      field_simp; ring
  have h3 : 3 ≤ n := by omega
  rw [lineFit_many eps n h3, many_tab] at h
  split_ifs at h with h4 h5
  obtain rfl := Outcome.ret.inj h
  rfl

/-- The residuals of the returned line are orthogonal to the constants and to the abscissas. -/
theorem lineFit_orthogonal (eps : ℝ) (xs ys : List ℝ) (l : Line) (h : lineFit eps xs ys = .ret l)
    (hv : ¬ NearlyVertical eps xs) :
    ((points xs ys).map fun p => p.2 - (l.a * p.1 + l.b)).sum = 0 ∧
    ((points xs ys).map fun p => p.1 * (p.2 - (l.a * p.1 + l.b))).sum = 0 := by
  have hl : xs.length = ys.length := by
    by_contra hl
    rw [lineFit, if_pos hl] at h; cases h
  obtain ⟨X, Y, hX, hY⟩ := exists_tabs xs ys hl
  generalize xs.length = n at hX hY hl
  subst hX
  rw [hY] at h ⊢
  rw [points, zip_tab, map_tab, map_tab, sum_tab, sum_tab]
  exact lineFit_orthogonal_aux eps n X Y l h hv

/-- Data on a line are fitted by that line, with residual norm zero. -/
theorem lineFit_exact (eps : ℝ) (xs : List ℝ) (a b : ℝ) (l : Line) (h : lineFit eps xs (xs.map fun x => a * x + b) = .ret l)
    (hv : ¬ NearlyVertical eps xs) (hd : ∃ x ∈ xs, ∃ x' ∈ xs, x ≠ x') : l = ⟨a, b, 0⟩ := by
  have hz : sumSq (points xs (xs.map fun x => a * x + b)) a b = 0 := by
    obtain ⟨n, X, hX⟩ := exists_tab xs (0 : ℝ)
    subst hX
    rw [map_tab, sumSq_tab]
    simp
  have hb : IsBest (points xs (xs.map fun x => a * x + b)) a b := by
    intro c d
    rw [hz]
    exact List.sum_nonneg (by simp only [List.mem_map, forall_exists_index, and_imp]; rintro _ p _ rfl; positivity)
  obtain ⟨ha, hb'⟩ := lineFit_unique eps _ _ l h hv hd a b hb
  have hn := lineFit_norm eps _ _ l h
  rw [← ha, ← hb', hz, Real.sqrt_zero] at hn
  cases l
  simp_all

example : lineFit (1 / 2 ^ 52) [0, 1, 2] [3, 5, 7] = .ret ⟨2, 3, 0⟩ := by
  have e : ([3, 5, 7] : List ℝ) = [0, 1, 2].map fun x => 2 * x + 3 := by norm_num
  obtain ⟨l, hl⟩ := lineFit_returns (1 / 2 ^ 52) (by norm_num) [0, 1, 2] [3, 5, 7] rfl (by simp)
    (fun _ => ⟨by simp [Clustered, sumXX, sumX]; norm_num, 1, by simp, by norm_num⟩)
  have := hl
  rw [e] at this
  rw [hl, lineFit_exact _ _ 2 3 l this (by simp [NearlyVertical]) ⟨0, by simp, 1, by simp, by norm_num⟩]

/-- Two points whose abscissas differ by less than `10 * eps` lie on a line, but the code returns another one, with a positive
residual norm. -/
theorem lineFit_nearlyVertical_wrong : ∃ l, lineFit (1 / 2 ^ 52) [0, 1 / 2 ^ 52] [0, 2] = .ret l ∧ l.norm ≠ 0 ∧
    ¬ IsBest [(0, 0), (1 / 2 ^ 52, 2)] l.a l.b := by
  refine ⟨twoFlat 0 2, ?_, ?_, ?_⟩
  · rw [lineFit]
    norm_num [two, Outcome.index]
  · norm_num [twoFlat]
  · intro h
    have := h (2 * 2 ^ 52) 0
    norm_num [sumSq, twoFlat] at this

/-! ## The statistics -/

/-- What `LinearLeastSquaresDetailed` returns: the line and norm of `LinearLeastSquares`, the mean of the squared residuals, and
for data that are not nearly constant the coefficient of determination `1 - (sum of squared residuals) / (sum of squared
deviations from the mean)`. -/
theorem lineFitDetailed_spec (eps : ℝ) (xs ys : List ℝ) :
    (∀ e, lineFitDetailed eps xs ys = .exn e ↔ lineFit eps xs ys = .exn e) ∧
    (∀ s, lineFitDetailed eps xs ys = .ret s ↔ ∃ l, lineFit eps xs ys = .ret l ∧ s.a = l.a ∧ s.b = l.b ∧ s.norm = l.norm ∧
      s.mse = sumSq (points xs ys) l.a l.b / xs.length ∧
      s.r2 = if (ys.map fun y => (y - ys.sum / ys.length) ^ 2).sum > eps
        then 1 - sumSq (points xs ys) l.a l.b / (ys.map fun y => (y - ys.sum / ys.length) ^ 2).sum
        else if sumSq (points xs ys) l.a l.b < eps then 1 else 0) := by
  rw [lineFitDetailed]
  cases hf : lineFit eps xs ys with
  | exn e => simp
  | ub => simp
  | ret l =>
    have hl : xs.length = ys.length := by
      by_contra hl
      rw [lineFit, if_pos hl] at hf; cases hf
    have h0 : xs.length ≠ 0 := by
      intro h0
      rw [lineFit, if_neg (by simpa using hl), if_pos h0] at hf; cases hf
    obtain ⟨X, Y, hX, hY⟩ := exists_tabs xs ys hl
    generalize xs.length = n at hX hY hl h0
    subst hX
    rw [hY]
    rw [Outcome.bind_ret, length_tab, meanOf_tab h0, Outcome.bind_ret, resSum_tab, Outcome.bind_ret, totSum_tab, Outcome.bind_ret,
      divU_of_ne (by exact_mod_cast h0), Outcome.bind_ret]
    simp only [sumSq_tab, map_tab, sum_tab, length_tab, ← sq, r2Of]
    refine ⟨by simp, fun s => ⟨?_, ?_⟩⟩
    · intro h
      obtain rfl := Outcome.ret.inj h
      exact ⟨l, rfl, rfl, rfl, rfl, rfl, rfl⟩
    · rintro ⟨l', hl', h1, h2, h3, h4, h5⟩
      obtain rfl := Outcome.ret.inj hl'
      cases s
      simp only at h1 h2 h3 h4 h5
      subst h1 h2 h3 h4 h5
      rfl

/-- The coefficient of determination lies between 0 and 1. -/
theorem lineFitDetailed_r2 (eps : ℝ) (he : 0 < eps) (xs ys : List ℝ) (s : LineStats) (h : lineFitDetailed eps xs ys = .ret s) :
    0 ≤ s.r2 ∧ s.r2 ≤ 1 := by
  obtain ⟨l, hf, h1, h2, h3, h4, h5⟩ := ((lineFitDetailed_spec eps xs ys).2 s).1 h
  have hl : xs.length = ys.length := by
    by_contra hl
    rw [lineFit, if_pos hl] at hf; cases hf
  obtain ⟨X, Y, hX, hY⟩ := exists_tabs xs ys hl
  generalize xs.length = n at hX hY hl
  subst hX
  rw [hY] at h5 hf
  have hnn : 0 ≤ sumSq (points (tab n X) (tab n Y)) l.a l.b := by
    rw [sumSq_tab]; exact Finset.sum_nonneg fun i _ => sq_nonneg _
  have hle : sumSq (points (tab n X) (tab n Y)) l.a l.b ≤
      ((tab n Y).map fun y => (y - (tab n Y).sum / (tab n Y).length) ^ 2).sum := by
    have e : ((tab n Y).map fun y => (y - (tab n Y).sum / (tab n Y).length) ^ 2).sum =
        sumSq (points (tab n X) (tab n Y)) 0 ((tab n Y).sum / (tab n Y).length) := by
      rw [sumSq_tab, map_tab, sum_tab]
      simp
    rw [e]
    by_cases hv : NearlyVertical eps (tab n X)
    · obtain ⟨hn2, hne, hlt⟩ := hv
      rw [length_tab] at hn2
      subst hn2
      rw [getD_tab 2 X 0 (by omega), getD_tab 2 X 0 (by omega)] at hlt
      rw [lineFit_two, if_pos hlt] at hf
      obtain rfl := Outcome.ret.inj hf
      apply le_of_eq
      simp [twoFlat, sum_tab, Finset.sum_range_succ]
    · exact lineFit_best eps _ _ l hf hv _ _
  rw [h5]
  split_ifs with g1 g2
  · have hpos := lt_trans he g1
    constructor
    · rw [sub_nonneg, div_le_one hpos]; exact hle
    · have := div_nonneg hnn hpos.le
      linarith
  · norm_num
  · norm_num

example : ∃ s, lineFitDetailed (1 / 2 ^ 52) [0, 1, 2] [1, 0, 3] = .ret s ∧ 0 ≤ s.r2 ∧ s.r2 ≤ 1 := by
  obtain ⟨l, hl⟩ := lineFit_returns (1 / 2 ^ 52) (by norm_num) [0, 1, 2] [1, 0, 3] rfl (by simp)
    (fun _ => ⟨by simp [Clustered, sumXX, sumX]; norm_num, 1, by simp, by norm_num⟩)
  have := ((lineFitDetailed_spec (1 / 2 ^ 52) [0, 1, 2] [1, 0, 3]).2 ⟨l.a, l.b, l.norm, _, _⟩).2 ⟨l, hl, rfl, rfl, rfl, rfl, rfl⟩
  exact ⟨_, this, lineFitDetailed_r2 _ (by norm_num) _ _ _ this⟩

/-- `LinearFitDetailed` without propagation never throws: its status says whether the fit succeeded, the coefficients are slope
and intercept in this order, and a singular system and malformed data have their own statuses.  With propagation the exceptions
are those of the fit. -/
theorem linearFitDetailed_spec (eps : ℝ) (xs ys : List ℝ) :
    (∀ s, lineFitDetailed eps xs ys = .ret s → ∀ p, linearFitDetailed eps p xs ys =
      .ret (.success, some ([s.a, s.b], s.norm, s.r2, s.mse))) ∧
    (lineFitDetailed eps xs ys = .exn (.mml "SingularMatrixError") →
      linearFitDetailed eps false xs ys = .ret (.singularMatrix, none)) ∧
    (lineFitDetailed eps xs ys = .exn (.mml "CurveFittingError") →
      linearFitDetailed eps false xs ys = .ret (.invalidInput, none)) ∧
    (∀ e, lineFitDetailed eps xs ys = .exn e → linearFitDetailed eps true xs ys = .exn e) ∧
    (∀ e, linearFitDetailed eps false xs ys ≠ .exn e) := by
  refine ⟨fun s h p => ?_, fun h => ?_, fun h => ?_, fun e h => ?_, fun e => ?_⟩
  · rw [linearFitDetailed, h, Outcome.bind_ret]; rfl
  · rw [linearFitDetailed, h]; rfl
  · rw [linearFitDetailed, h]; rfl
  · rw [linearFitDetailed, h]; rfl
  · rw [linearFitDetailed]
    cases h : lineFitDetailed eps xs ys <;> simp [execute]

example : linearFitDetailed (1 / 2 ^ 52) false [1, 1, 1] [1, 2, 3] = .ret (.singularMatrix, none) :=
  (linearFitDetailed_spec _ _ _).2.1 (((lineFitDetailed_spec _ _ _).1 _).2
    (lineFit_vertical _ 1 (by norm_num) one_ne_zero 3 (by norm_num) _ rfl))

/-! ## Evaluation of the fitted polynomial -/

/-- `EvaluatePolynomial` returns `c₀ + c₁ x + c₂ x² + …`, and zero for no coefficients. -/
theorem evalPoly_spec (x : ℝ) (c : List ℝ) :
    evalPoly x c = .ret (∑ i ∈ Finset.range c.length, c.getD i 0 * x ^ i) := by
  by_cases h0 : c.length = 0
  · rw [evalPoly, if_pos h0, h0]; simp
  rw [evalPoly, if_neg h0]
  obtain ⟨n, f, rfl⟩ := exists_tab c (0 : ℝ)
  rw [length_tab] at h0
  simp only [length_tab]
  rw [index_tab f (by omega), Outcome.bind_ret]
  obtain ⟨t, ht, hP⟩ := forDown_rule
    (fun k r => r * x ^ k = ∑ i ∈ Finset.Ico k n, f i * x ^ i ∧ r = ∑ i ∈ Finset.Ico k n, f i * x ^ (i - k)) 0 (n - 1) (Nat.zero_le _) (f (n - 1))
    (fun r i => do
      let ci ← Outcome.index (tab n f) i
      .ret (ci + x * r))
    (by
      rw [show Finset.Ico (n - 1) n = {n - 1} by ext k; simp; omega]
      simp)
    (by
      rintro i r - hi ⟨h1, h2⟩
      refine ⟨_, by rw [index_tab f (by omega), Outcome.bind_ret], ?_, ?_⟩
      · rw [Finset.sum_eq_sum_Ico_succ_bot (by omega), ← h1, pow_succ]; ring
      · rw [Finset.sum_eq_sum_Ico_succ_bot (by omega), h2, Finset.mul_sum]
        simp only [Nat.sub_self, pow_zero, mul_one]
        congr 1
        refine Finset.sum_congr rfl fun k hk => ?_
        rw [Finset.mem_Ico] at hk
        rw [show k - i = (k - (i + 1)) + 1 by omega, pow_succ]; ring)
  rw [ht, hP.2]
  congr 1
  rw [← Finset.range_eq_Ico]
  refine Finset.sum_congr rfl fun i hi => ?_
  rw [getD_tab n f 0 (Finset.mem_range.1 hi)]; simp

example : evalPoly 2 [1, 3, 5] = .ret 27 := by
  rw [evalPoly_spec]; norm_num [Finset.sum_range_succ]

end Verif.Fit
