import Verif.Interp.Glue
import Verif.Interp.Error

/-!
# Tables, the search for an interval and linear interpolation (C81)
-/

set_option autoImplicit false

namespace Verif.Interp

open Verif Set

/-- C81: a table is accepted exactly when it has at least two points, the number of points used is between two and that, and all
abscissas are different. -/
theorem table_new_spec (x y : List ℝ) (used : ℤ) :
    Table.new x y used = if 2 ≤ x.length ∧ 2 ≤ used ∧ used ≤ x.length ∧ x.Nodup then .ret ⟨x, y, used.toNat⟩
      else .exn (.mml "RealFuncInterpInitError") := by
  rw [Table.new]
  by_cases h : 2 ≤ x.length ∧ 2 ≤ used ∧ used ≤ x.length
  · rw [if_neg (by omega)]
    by_cases hn : x.Nodup
    · rw [if_neg (by simpa using hn), if_pos ⟨h.1, h.2.1, h.2.2, hn⟩]
    · rw [if_pos hn, if_neg (fun h' => hn h'.2.2.2)]
  · rw [if_pos (by omega), if_neg (fun h' => h ⟨h'.1, h'.2.1, h'.2.2.1⟩)]

/-- C81: whatever the table, the points used for an interpolation are points of the table. -/
theorem locate_window (x y : List ℝ) (used : ℤ) (t : Table) (h : Table.new x y used = .ret t) (z : ℝ) :
    t.locate z + t.used ≤ x.length := by
  rw [table_new_spec] at h
  split at h
  · rename_i hc
    cases h
    rw [Table.locate]
    dsimp only
    omega
  · cases h

/-- C81: for an ordered table they include the end points of an interval around `z`, or of the first or last interval when `z` is
outside, and that interval is the middle one unless the table ends too early. -/
theorem locate_brackets (n : ℕ) (x : ℕ → ℝ) (y : List ℝ) (hx : Increasing n x ∨ Decreasing n x) (used : ℤ) (t : Table)
    (h : Table.new (tab n x) y used = .ret t) (z : ℝ) :
    ∃ i, i + 1 < n ∧ t.locate z ≤ i ∧ i + 1 < t.locate z + t.used ∧
      (Between (x i) z (x (i + 1)) ∨ i = 0 ∧ ¬ Between (x 0) z (x (n - 1)) ∨ i + 2 = n ∧ ¬ Between (x 0) z (x (n - 1))) ∧
      (t.locate z + (t.used - 2) / 2 = i ∨ t.locate z = 0 ∨ t.locate z + t.used = n) := by
  rw [table_new_spec, length_tab] at h
  split at h
  · rename_i hc
    cases h
    have hn : 2 ≤ n := hc.1
    obtain ⟨σ, hσ⟩ : ∃ σ, Ordered σ n x := by
      rcases hx with hx | hx
      · exact ⟨1, hx.ordered⟩
      · exact ⟨-1, hx.ordered⟩
    have hcell := search_cell hσ hn z
    refine ⟨search (tab n x) z, hcell.lt, ?_, ?_, ?_, ?_⟩
    · simp only [Table.locate, length_tab]
      omega
    · simp only [Table.locate, length_tab]
      have := hcell.lt
      omega
    · generalize search (tab n x) z = i at hcell
      obtain ⟨c1, c2, c3⟩ := hcell
      have hb : ∀ u v, Between u z v ↔ σ * u ≤ σ * z ∧ σ * z ≤ σ * v ∨ σ * v ≤ σ * z ∧ σ * z ≤ σ * u := by
        intro u v
        rw [Between]
        rcases hσ.dir with rfl | rfl
        · simp
        · simp only [neg_mul, one_mul, neg_le_neg_iff]
          tauto
      have l0 : ∀ j, j < n → σ * x 0 ≤ σ * x j := fun j hj => hσ.le (Nat.zero_le j) hj
      have l1 : ∀ j, j < n → σ * x j ≤ σ * x (n - 1) := fun j hj => hσ.le (by omega) (by omega)
      have l2 := hσ.lt 0 (n - 1) (by omega) (by omega)
      have l3 := hσ.lt i (i + 1) (by omega) c1
      by_cases k1 : σ * x i ≤ σ * z
      · by_cases k2 : σ * z ≤ σ * x (i + 1)
        · exact Or.inl ((hb _ _).mpr (Or.inl ⟨k1, k2⟩))
        · right; right
          have hi := c3.resolve_right k2
          refine ⟨hi, fun hc => ?_⟩
          rw [show i + 1 = n - 1 by omega] at k2
          rcases (hb _ _).mp hc with hc | hc <;> linarith [hc.1, hc.2]
      · right; left
        have hi := c2.resolve_right k1
        refine ⟨hi, fun hc => ?_⟩
        rw [hi] at k1
        rcases (hb _ _).mp hc with hc | hc <;> linarith [hc.1, hc.2]
    · simp only [Table.locate, length_tab]
      have := hcell.lt
      omega
  · cases h

/-- Non-vacuity: five points of which three are used. -/
example : ∃ t, Table.new (tab 5 fun i => (i : ℝ) ^ 2) (tab 5 fun i => (i : ℝ)) 3 = .ret t ∧ Increasing 5 fun i => (i : ℝ) ^ 2 := by
  have hinc : Increasing 5 fun i => (i : ℝ) ^ 2 := by
    intro i j hij hj
    dsimp only
    have h1 : (i : ℝ) < j := by exact_mod_cast hij
    have h0 : (0 : ℝ) ≤ i := Nat.cast_nonneg i
    nlinarith
  refine ⟨⟨tab 5 fun i => (i : ℝ) ^ 2, tab 5 fun i => (i : ℝ), 3⟩, ?_, hinc⟩
  rw [table_new_spec, if_pos]
  · rfl
  simp only [length_tab]
  exact ⟨by norm_num, by norm_num, by norm_num, nodup_tab.mpr hinc.ordered.distinct⟩

/-! ## Linear interpolation -/

theorem linear_new (n : ℕ) (hn : 2 ≤ n) (x y : ℕ → ℝ) (hx : Distinct n x) (ex : Bool) :
    Linear.new (tab n x) (tab n y) ex = .ret ⟨⟨tab n x, tab n y, 2⟩, ex⟩ := by
  rw [Linear.new, table_new_spec, if_pos]
  · rfl
  · rw [length_tab]
    exact ⟨hn, le_rfl, by exact_mod_cast hn, nodup_tab.mpr hx⟩

theorem locate_two {σ : ℝ} {n : ℕ} {x : ℕ → ℝ} (hx : Ordered σ n x) (hn : 2 ≤ n) (y : List ℝ) (z : ℝ) :
    Cell σ n x z ((⟨tab n x, y, 2⟩ : Table).locate z) := by
  have h := search_cell hx hn z
  have e : (⟨tab n x, y, 2⟩ : Table).locate z = search (tab n x) z := by
    simp only [Table.locate, length_tab]
    have := h.lt
    omega
  rw [e]
  exact h

theorem line_eq {n : ℕ} {x y : ℕ → ℝ} (ex : Bool) {i : ℕ} (hi : i + 1 < n) (hne : x i ≠ x (i + 1)) (z : ℝ) :
    (⟨⟨tab n x, tab n y, 2⟩, ex⟩ : Linear).line i z = .ret (lineThrough (x i) (y i) (x (i + 1)) (y (i + 1)) z) := by
  have h1 : x (i + 1) - x i ≠ 0 := sub_ne_zero.mpr hne.symm
  rw [Linear.line]
  simp only [Table.X, Table.Y]
  rw [index_tab x (by omega), index_tab x hi, index_tab y (by omega), index_tab y hi]
  simp only [Outcome.bind_ret]
  rw [if_neg hne, fdiv, if_neg h1]
  simp only [Outcome.bind_ret, lineThrough]
  congr 1
  field_simp
  ring

theorem linear_calc {n : ℕ} (hn : 2 ≤ n) {x y : ℕ → ℝ} (ex : Bool) (i : ℕ) (z : ℝ) :
    (⟨⟨tab n x, tab n y, 2⟩, ex⟩ : Linear).calc i z =
      if ex = false ∧ (z < x 0 ∨ z > x (n - 1)) then .ret 0 else (⟨⟨tab n x, tab n y, 2⟩, ex⟩ : Linear).line i z := by
  rw [Linear.calc]
  simp only [Table.minX, Table.maxX, Table.X, length_tab]
  rw [index_tab x (by omega), index_tab x (by omega)]
  simp only [Outcome.bind_ret]

theorem lineThrough_left {x0 y0 x1 y1 : ℝ} (h : x0 ≠ x1) : lineThrough x0 y0 x1 y1 x0 = y0 := by
  have : x1 - x0 ≠ 0 := sub_ne_zero.mpr h.symm
  rw [lineThrough]
  field_simp
  ring

theorem lineThrough_right {x0 y0 x1 y1 : ℝ} (h : x0 ≠ x1) : lineThrough x0 y0 x1 y1 x1 = y1 := by
  have : x1 - x0 ≠ 0 := sub_ne_zero.mpr h.symm
  rw [lineThrough]
  field_simp
  ring

/-- The lines of a table agree at its points. -/
theorem line_cell {σ : ℝ} {n : ℕ} {x y : ℕ → ℝ} (hx : Ordered σ n x) (ex : Bool) {z : ℝ} {i j : ℕ} (hi : Cell σ n x z i)
    (hj : Cell σ n x z j) :
    (⟨⟨tab n x, tab n y, 2⟩, ex⟩ : Linear).line i z = .ret (lineThrough (x j) (y j) (x (j + 1)) (y (j + 1)) z) := by
  rw [line_eq ex hi.lt (hx.ne (Nat.lt_succ_self i) hi.lt)]
  congr 1
  refine hi.agree hx hj (fun i z => lineThrough (x i) (y i) (x (i + 1)) (y (i + 1)) z) fun k hk => ?_
  rw [lineThrough_right (hx.ne (Nat.lt_succ_self k) (by omega)), lineThrough_left (hx.ne (Nat.lt_succ_self (k + 1)) hk)]

/-- C81: between two neighbouring points of an increasing table the interpolated function is the straight line through them. -/
theorem linear_between (n : ℕ) (x y : ℕ → ℝ) (hx : Increasing n x) (ex : Bool) (f : Linear)
    (hf : Linear.new (tab n x) (tab n y) ex = .ret f) (i : ℕ) (hi : i + 1 < n) (z : ℝ) (h1 : x i ≤ z) (h2 : z ≤ x (i + 1)) :
    f.eval z = .ret (lineThrough (x i) (y i) (x (i + 1)) (y (i + 1)) z) := by
  have ho := hx.ordered
  rw [linear_new n (by omega) x y ho.distinct] at hf
  cases hf
  rw [Linear.eval, linear_calc (by omega), if_neg]
  · exact line_cell ho ex (locate_two ho (by omega) _ z) ⟨hi, Or.inr (by simpa using h1), Or.inr (by simpa using h2)⟩
  · rintro ⟨-, h | h⟩
    · have := ho.le (Nat.zero_le i) (by omega)
      linarith
    · have := ho.le (show i + 1 ≤ n - 1 by omega) (by omega)
      linarith

/-- C81: at the points of the table it takes the values given. -/
theorem linear_interpolates (n : ℕ) (hn : 2 ≤ n) (x y : ℕ → ℝ) (hx : Increasing n x) (ex : Bool) :
    ∃ f, Linear.new (tab n x) (tab n y) ex = .ret f ∧ ∀ i, i < n → f.eval (x i) = .ret (y i) := by
  refine ⟨_, linear_new n hn x y hx.ordered.distinct ex, fun i hi => ?_⟩
  by_cases h : i + 1 < n
  · rw [linear_between n x y hx ex _ (linear_new n hn x y hx.ordered.distinct ex) i h _ le_rfl (hx i (i + 1) (by omega) h).le,
      lineThrough_left (hx i (i + 1) (by omega) h).ne]
  · obtain ⟨k, rfl⟩ : ∃ k, i = k + 1 := ⟨i - 1, by omega⟩
    rw [linear_between n x y hx ex _ (linear_new n hn x y hx.ordered.distinct ex) k hi _ (hx k (k + 1) (by omega) hi).le le_rfl,
      lineThrough_right (hx k (k + 1) (by omega) hi).ne]

/-- C81: outside the table it is zero, or the first or the last line when extrapolation was asked for. -/
theorem linear_outside (n : ℕ) (hn : 2 ≤ n) (x y : ℕ → ℝ) (hx : Increasing n x) (ex : Bool) :
    ∃ f, Linear.new (tab n x) (tab n y) ex = .ret f ∧
      (∀ z < x 0, f.eval z = .ret (if ex then lineThrough (x 0) (y 0) (x 1) (y 1) z else 0)) ∧
      ∀ z > x (n - 1), f.eval z =
        .ret (if ex then lineThrough (x (n - 2)) (y (n - 2)) (x (n - 1)) (y (n - 1)) z else 0) := by
  have ho := hx.ordered
  refine ⟨_, linear_new n hn x y ho.distinct ex, fun z hz => ?_, fun z hz => ?_⟩
  · rw [Linear.eval, linear_calc hn]
    cases ex
    · rw [if_pos ⟨rfl, Or.inl hz⟩]
      rfl
    · rw [if_neg (by simp)]
      refine line_cell ho true (locate_two ho hn _ z) ⟨by omega, Or.inl rfl, Or.inr ?_⟩
      have := ho.lt 0 1 (by omega) (by omega)
      simp only [one_mul] at this ⊢
      linarith
  · rw [Linear.eval, linear_calc hn]
    cases ex
    · rw [if_pos ⟨rfl, Or.inr hz⟩]
      rfl
    · rw [if_neg (by simp)]
      have := line_cell (y := y) ho true (locate_two ho hn (tab n y) z) (j := n - 2)
        ⟨by omega, Or.inr ?_, Or.inl (by omega)⟩
      · rw [show n - 2 + 1 = n - 1 by omega] at this
        exact this
      · have := ho.lt (n - 2) (n - 1) (by omega) (by omega)
        simp only [one_mul] at this ⊢
        linarith

/-- C81: it does not leave the range of the two neighbouring values. -/
theorem lineThrough_between {x0 y0 x1 y1 z : ℝ} (h : x0 < x1) (h1 : x0 ≤ z) (h2 : z ≤ x1) :
    min y0 y1 ≤ lineThrough x0 y0 x1 y1 z ∧ lineThrough x0 y0 x1 y1 z ≤ max y0 y1 := by
  have hp : 0 < x1 - x0 := by linarith
  have a1 : 0 ≤ x1 - z := by linarith
  have a2 : 0 ≤ z - x0 := by linarith
  rw [lineThrough]
  constructor
  · rw [le_div_iff₀ hp]
    nlinarith [mul_le_mul_of_nonneg_left (min_le_left y0 y1) a1, mul_le_mul_of_nonneg_left (min_le_right y0 y1) a2]
  · rw [div_le_iff₀ hp]
    nlinarith [mul_le_mul_of_nonneg_left (le_max_left y0 y1) a1, mul_le_mul_of_nonneg_left (le_max_right y0 y1) a2]

/-- C81: it is continuous, everywhere with extrapolation and otherwise between the ends of the table. -/
theorem linear_continuous (n : ℕ) (hn : 2 ≤ n) (x y : ℕ → ℝ) (hx : Increasing n x) (ex : Bool) :
    ∃ f, Linear.new (tab n x) (tab n y) ex = .ret f ∧ ∃ S : ℝ → ℝ, Continuous S ∧
      ∀ z, ex = true ∨ x 0 ≤ z ∧ z ≤ x (n - 1) → f.eval z = .ret (S z) := by
  have ho := hx.ordered
  let loc := (⟨tab n x, tab n y, 2⟩ : Table).locate
  have hloc := locate_two ho hn (tab n y)
  refine ⟨_, linear_new n hn x y ho.distinct ex,
    fun z => lineThrough (x (loc z)) (y (loc z)) (x (loc z + 1)) (y (loc z + 1)) z, ?_, ?_⟩
  · have hp : Pieces 1 n x (fun z => lineThrough (x (loc z)) (y (loc z)) (x (loc z + 1)) (y (loc z + 1)) z)
        (fun i z => lineThrough (x i) (y i) (x (i + 1)) (y (i + 1)) z) := by
      refine Pieces.of_loc ho loc hloc (fun _ => rfl) fun k hk => ?_
      rw [lineThrough_right (ho.ne (Nat.lt_succ_self k) (by omega)), lineThrough_left (ho.ne (Nat.lt_succ_self (k + 1)) hk)]
    rw [continuous_iff_continuousAt]
    intro z
    refine hp.continuousAt fun i _ => ?_
    simp only [lineThrough]
    fun_prop
  · intro z hz
    rw [Linear.eval, linear_calc hn, if_neg]
    · exact line_cell ho ex (hloc z) (hloc z)
    · rintro ⟨rfl, h⟩
      rcases hz with hz | hz
      · cases hz
      · rcases h with h | h <;> linarith [hz.1, hz.2]

/-- C81: for a table of values of a twice continuously differentiable function the error is at most an eighth of the second
derivative times the square of the width of the interval. -/
theorem linear_error (n : ℕ) (x : ℕ → ℝ) (g : ℝ → ℝ) (hx : Increasing n x) (ex : Bool) (f : Linear)
    (hf : Linear.new (tab n x) (tab n fun i => g (x i)) ex = .ret f) (i : ℕ) (hi : i + 1 < n)
    (hg : ContDiffOn ℝ 2 g (Icc (x i) (x (i + 1)))) (M : ℝ)
    (hM : ∀ ξ ∈ Icc (x i) (x (i + 1)), |iteratedDerivWithin 2 g (Icc (x i) (x (i + 1))) ξ| ≤ M)
    (z : ℝ) (hz : z ∈ Icc (x i) (x (i + 1))) :
    ∃ v, f.eval z = .ret v ∧ |g z - v| ≤ M * (x (i + 1) - x i) ^ 2 / 8 := by
  have hlt := hx i (i + 1) (by omega) hi
  refine ⟨_, linear_between n x _ hx ex f hf i hi z hz.1 hz.2, ?_⟩
  have hs : Set.InjOn x ({i, i + 1} : Finset ℕ) := by
    intro a ha b hb hab
    simp only [Finset.coe_insert, Finset.coe_singleton, mem_insert_iff, mem_singleton_iff] at ha hb
    rcases ha with rfl | rfl <;> rcases hb with rfl | rfl
    · rfl
    · exact absurd hab hlt.ne
    · exact absurd hab hlt.ne'
    · rfl
  have hcard : ({i, i + 1} : Finset ℕ).card = 2 := Finset.card_pair (by omega)
  have := interp_error {i, i + 1} x hs hlt g (by rw [hcard]; exact hg)
    (by
      intro k hk
      simp only [Finset.mem_insert, Finset.mem_singleton] at hk
      rcases hk with rfl | rfl
      · exact ⟨le_rfl, hlt.le⟩
      · exact ⟨hlt.le, le_rfl⟩) hz
  rw [hcard] at this
  obtain ⟨ξ, hξ, he⟩ := this
  have hp : (Lagrange.interpolate {i, i + 1} x fun i => g (x i)).eval z = lineThrough (x i) (g (x i)) (x (i + 1)) (g (x (i + 1))) z := by
    have h1 : x i - x (i + 1) ≠ 0 := sub_ne_zero.mpr hlt.ne
    have h2 : x (i + 1) - x i ≠ 0 := sub_ne_zero.mpr hlt.ne'
    rw [Lagrange.interpolate_apply, Finset.sum_pair (by omega), Lagrange.basis_pair_left (by omega), Lagrange.basis_pair_right (by omega)]
    simp only [Lagrange.basisDivisor, Polynomial.eval_add, Polynomial.eval_mul, Polynomial.eval_C, Polynomial.eval_sub,
      Polynomial.eval_X, lineThrough]
    rw [show (x i - x (i + 1))⁻¹ = -(x (i + 1) - x i)⁻¹ by rw [← inv_neg, neg_sub]]
    field_simp
    ring
  rw [hp] at he
  rw [he, Finset.prod_pair (by omega), abs_mul, abs_div]
  have h1 := hM ξ hξ
  have h3 : |(z - x i) * (z - x (i + 1))| ≤ (x (i + 1) - x i) ^ 2 / 4 := by
    rw [abs_le]
    constructor
    · nlinarith [sq_nonneg ((z - x i) + (z - x (i + 1)))]
    · nlinarith [mul_nonneg (sub_nonneg.mpr hz.1) (sub_nonneg.mpr hz.2)]
  have h4 : |((2 : ℕ).factorial : ℝ)| = 2 := by norm_num [Nat.factorial]
  rw [h4]
  have h5 : 0 ≤ |iteratedDerivWithin 2 g (Icc (x i) (x (i + 1))) ξ| := abs_nonneg _
  calc |iteratedDerivWithin 2 g (Icc (x i) (x (i + 1))) ξ| / 2 * |(z - x i) * (z - x (i + 1))|
      ≤ M / 2 * ((x (i + 1) - x i) ^ 2 / 4) := by
        refine mul_le_mul (by linarith) h3 (abs_nonneg _) ?_
        linarith
    _ = M * (x (i + 1) - x i) ^ 2 / 8 := by ring

/-- Non-vacuity: the squares at 0, 1, 2, 3 with second derivative 2. -/
example : ∃ f, Linear.new (tab 4 fun i => (i : ℝ)) (tab 4 fun i => (i : ℝ) ^ 2) false = .ret f ∧
    ∃ v, f.eval (3 / 2) = .ret v ∧ v = 5 / 2 := by
  have hinc : Increasing 4 fun i => (i : ℝ) := fun i j hij _ => by dsimp only; exact_mod_cast hij
  refine ⟨_, linear_new 4 (by norm_num) _ _ hinc.ordered.distinct false, _,
    linear_between 4 _ (fun i => (i : ℝ) ^ 2) hinc false _ (linear_new 4 (by norm_num) _ _ hinc.ordered.distinct false) 1
      (by norm_num) (3 / 2) (by norm_num) (by norm_num), ?_⟩
  simp only [lineThrough]
  norm_num

/-- C81, decreasing tables: with extrapolation the lines are the same. -/
theorem linear_decreasing (n : ℕ) (hn : 2 ≤ n) (x y : ℕ → ℝ) (hx : Decreasing n x) :
    ∃ f, Linear.new (tab n x) (tab n y) true = .ret f ∧ ∀ i z, i + 1 < n → x (i + 1) ≤ z → z ≤ x i →
      f.eval z = .ret (lineThrough (x i) (y i) (x (i + 1)) (y (i + 1)) z) := by
  have ho := hx.ordered
  refine ⟨_, linear_new n hn x y ho.distinct true, fun i z hi h1 h2 => ?_⟩
  rw [Linear.eval, linear_calc hn, if_neg (by simp)]
  exact line_cell ho true (locate_two ho hn _ z) ⟨hi, Or.inr (by simpa using h2), Or.inr (by simpa using h1)⟩

/-- C81, the other direction: although the search is made for decreasing tables too, without extrapolation (the default) the
interpolated function of a decreasing table is zero everywhere, since the test of the range compares with the wrong ends. -/
theorem linear_decreasing_zero (n : ℕ) (hn : 2 ≤ n) (x y : ℕ → ℝ) (hx : Decreasing n x) :
    ∃ f, Linear.new (tab n x) (tab n y) false = .ret f ∧ ∀ z, f.eval z = .ret 0 := by
  have ho := hx.ordered
  refine ⟨_, linear_new n hn x y ho.distinct false, fun z => ?_⟩
  rw [Linear.eval, linear_calc hn, if_pos]
  refine ⟨rfl, ?_⟩
  have := hx 0 (n - 1) (by omega) (by omega)
  by_cases h : z < x 0
  · exact Or.inl h
  · exact Or.inr (by rw [not_lt] at h; linarith)

/-- C81, the other direction: the length of the second vector is not compared with the first; a shorter one is read out of
bounds. -/
theorem linear_short_values (x0 x1 y0 : ℝ) (h : x0 < x1) :
    ∃ f, Linear.new [x0, x1] [y0] false = .ret f ∧ f.eval x0 = .ub := by
  have hinc : Increasing 2 fun i => if i = 0 then x0 else x1 := by
    intro i j hij hj
    obtain rfl : i = 0 := by omega
    obtain rfl : j = 1 := by omega
    simpa using h
  have e : [x0, x1] = tab 2 fun i => if i = 0 then x0 else x1 := rfl
  refine ⟨⟨⟨[x0, x1], [y0], 2⟩, false⟩, ?_, ?_⟩
  · rw [Linear.new, table_new_spec, if_pos]
    · rfl
    · refine ⟨by simp, by norm_num, by simp, ?_⟩
      simpa using h.ne
  · have hl := locate_two hinc.ordered le_rfl [y0] x0
    rw [← e] at hl
    have h0 : (⟨[x0, x1], [y0], 2⟩ : Table).locate x0 = 0 := by
      have := hl.lt
      omega
    rw [Linear.eval, Linear.calc]
    simp only [h0]
    have hne : x1 - x0 ≠ 0 := sub_ne_zero.mpr h.ne'
    simp [Table.minX, Table.maxX, Table.X, Table.Y, Outcome.index, Linear.line, fdiv, h.ne, hne, h.le, not_lt.mpr h.le]

end Verif.Interp
