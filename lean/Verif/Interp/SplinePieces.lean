import Verif.Interp.SplineLemmas
import Verif.Interp.LinearProps
import Mathlib.Analysis.Calculus.ContDiff.Deriv
import Mathlib.Analysis.Calculus.Deriv.Polynomial
import Mathlib.Tactic.ComputeDegree

/-!
# The polynomials of a spline
-/

set_option autoImplicit false

namespace Verif.Interp

open Verif Polynomial

/-- The polynomial of one interval. -/
noncomputable def piecePoly (x0 x1 y0 y1 s0 s1 : ℝ) : ℝ[X] :=
  C (1 / (x1 - x0)) * (C x1 - X) * C y0 + C (1 / (x1 - x0)) * (X - C x0) * C y1 +
    ((((C (1 / (x1 - x0)) * (C x1 - X)) ^ 3 - C (1 / (x1 - x0)) * (C x1 - X)) * C s0) +
      (((C (1 / (x1 - x0)) * (X - C x0)) ^ 3 - C (1 / (x1 - x0)) * (X - C x0)) * C s1)) * C ((x1 - x0) ^ 2 / 6)

theorem piecePoly_degree (x0 x1 y0 y1 s0 s1 : ℝ) : (piecePoly x0 x1 y0 y1 s0 s1).natDegree ≤ 3 := by
  rw [piecePoly]
  compute_degree

theorem piecePoly_eval (x0 x1 y0 y1 s0 s1 z : ℝ) : (piecePoly x0 x1 y0 y1 s0 s1).eval z =
    (x1 - z) / (x1 - x0) * y0 + (z - x0) / (x1 - x0) * y1 +
      ((((x1 - z) / (x1 - x0)) ^ 3 - (x1 - z) / (x1 - x0)) * s0 + (((z - x0) / (x1 - x0)) ^ 3 - (z - x0) / (x1 - x0)) * s1) *
        ((x1 - x0) ^ 2 / 6) := by
  simp only [piecePoly, eval_add, eval_mul, eval_sub, eval_pow, eval_C, eval_X]
  ring

theorem piecePoly_deriv {x0 x1 : ℝ} (h : x0 ≠ x1) (y0 y1 s0 s1 z : ℝ) : (piecePoly x0 x1 y0 y1 s0 s1).derivative.eval z =
    (y1 - y0) / (x1 - x0) - (3 * ((x1 - z) / (x1 - x0)) ^ 2 - 1) / 6 * (x1 - x0) * s0 +
      (3 * ((z - x0) / (x1 - x0)) ^ 2 - 1) / 6 * (x1 - x0) * s1 := by
  have hh : x1 - x0 ≠ 0 := sub_ne_zero.mpr h.symm
  simp only [piecePoly, derivative_add, derivative_mul, derivative_sub, derivative_pow, derivative_C, derivative_X, eval_add, eval_mul,
    eval_sub, eval_pow, eval_C, eval_X, eval_zero, eval_one, eval_natCast, map_natCast]
  push_cast
  field_simp
  ring

theorem piecePoly_deriv2 {x0 x1 : ℝ} (h : x0 ≠ x1) (y0 y1 s0 s1 z : ℝ) : (piecePoly x0 x1 y0 y1 s0 s1).derivative.derivative.eval z =
    (x1 - z) / (x1 - x0) * s0 + (z - x0) / (x1 - x0) * s1 := by
  have hh : x1 - x0 ≠ 0 := sub_ne_zero.mpr h.symm
  simp only [piecePoly, derivative_add, derivative_mul, derivative_sub, derivative_pow, derivative_C, derivative_X, eval_add, eval_mul,
    eval_sub, eval_pow, eval_C, eval_X, eval_zero, eval_one, eval_natCast, map_natCast, derivative_one, derivative_zero, derivative_natCast]
  push_cast
  field_simp
  ring

theorem piece_eq {n : ℕ} {x y M : ℕ → ℝ} {i : ℕ} (hi : i + 1 < n) (hne : x i ≠ x (i + 1)) (z : ℝ) :
    (⟨⟨tab n x, tab n y, 2⟩, tab n M⟩ : Spline).piece i z = .ret ⟨x (i + 1) - x i, (x (i + 1) - z) / (x (i + 1) - x i),
      (z - x i) / (x (i + 1) - x i), y i, y (i + 1), M i, M (i + 1)⟩ := by
  have h1 : x (i + 1) - x i ≠ 0 := sub_ne_zero.mpr hne.symm
  rw [Spline.piece]
  simp only [Table.X, Table.Y]
  rw [index_tab x (by omega), index_tab x hi, index_tab y (by omega), index_tab y hi, index_tab M (by omega), index_tab M hi]
  simp only [Outcome.bind_ret, if_neg h1]

/-- The polynomial of interval `i`. -/
noncomputable def pp (x y M : ℕ → ℝ) (i : ℕ) : ℝ[X] := piecePoly (x i) (x (i + 1)) (y i) (y (i + 1)) (M i) (M (i + 1))

/-- What the constructor leaves. -/
structure Sec (σ : ℝ) (l : ℕ) (x y : ℕ → ℝ) (yp1 ypn : ℝ) (M : ℕ → ℝ) : Prop where
  ord : Ordered σ (l + 2) x
  first : FirstEq x y yp1 M
  last : LastEq x y l ypn M
  inner : ∀ i, i < l → InnerEq x y M i

section

variable {σ : ℝ} {l : ℕ} {x y : ℕ → ℝ} {yp1 ypn : ℝ} {M : ℕ → ℝ}

theorem spline_new (hx : Ordered σ (l + 2) x) (y : ℕ → ℝ) (yp1 ypn : ℝ) :
    ∃ M, Spline.new (tab (l + 2) x) (tab (l + 2) y) yp1 ypn = .ret ⟨⟨tab (l + 2) x, tab (l + 2) y, 2⟩, tab (l + 2) M⟩ ∧
      Sec σ l x y yp1 ypn M := by
  obtain ⟨M, hM, h1, h2, h3⟩ := initSecDerivs_eq x y hx yp1 ypn
  refine ⟨M, ?_, hx, h1, h2, h3⟩
  rw [Spline.new, table_new_spec, if_pos]
  · simp only [Outcome.bind_ret]
    rw [show (2 : ℤ).toNat = 2 from rfl, hM]
    rfl
  · rw [length_tab]
    exact ⟨by omega, le_rfl, by push_cast; omega, nodup_tab.mpr hx.distinct⟩

/-- The spline found and the index used. -/
noncomputable def loc (l : ℕ) (x y : ℕ → ℝ) (z : ℝ) : ℕ := (⟨tab (l + 2) x, tab (l + 2) y, 2⟩ : Table).locate z

theorem loc_cell (hx : Ordered σ (l + 2) x) (z : ℝ) : Cell σ (l + 2) x z (loc l x y z) := locate_two hx (by omega) _ z

theorem Sec.ne (h : Sec σ l x y yp1 ypn M) {i : ℕ} (hi : i + 1 < l + 2) : x i ≠ x (i + 1) := h.ord.ne (Nat.lt_succ_self i) hi


theorem piecePoly_left {x0 x1 : ℝ} (h : x0 ≠ x1) (y0 y1 s0 s1 : ℝ) : (piecePoly x0 x1 y0 y1 s0 s1).eval x0 = y0 := by
  have hh : x1 - x0 ≠ 0 := sub_ne_zero.mpr h.symm
  rw [piecePoly_eval, div_self hh, sub_self, zero_div]
  ring

theorem piecePoly_right {x0 x1 : ℝ} (h : x0 ≠ x1) (y0 y1 s0 s1 : ℝ) : (piecePoly x0 x1 y0 y1 s0 s1).eval x1 = y1 := by
  have hh : x1 - x0 ≠ 0 := sub_ne_zero.mpr h.symm
  rw [piecePoly_eval, div_self hh, sub_self, zero_div]
  ring

theorem piecePoly_deriv_left {x0 x1 : ℝ} (h : x0 ≠ x1) (y0 y1 s0 s1 : ℝ) : (piecePoly x0 x1 y0 y1 s0 s1).derivative.eval x0 =
    (y1 - y0) / (x1 - x0) - (x1 - x0) * (2 * s0 + s1) / 6 := by
  have hh : x1 - x0 ≠ 0 := sub_ne_zero.mpr h.symm
  rw [piecePoly_deriv h, div_self hh, sub_self, zero_div]
  ring

theorem piecePoly_deriv_right {x0 x1 : ℝ} (h : x0 ≠ x1) (y0 y1 s0 s1 : ℝ) : (piecePoly x0 x1 y0 y1 s0 s1).derivative.eval x1 =
    (y1 - y0) / (x1 - x0) + (x1 - x0) * (s0 + 2 * s1) / 6 := by
  have hh : x1 - x0 ≠ 0 := sub_ne_zero.mpr h.symm
  rw [piecePoly_deriv h, div_self hh, sub_self, zero_div]
  ring

theorem piecePoly_deriv2_left {x0 x1 : ℝ} (h : x0 ≠ x1) (y0 y1 s0 s1 : ℝ) :
    (piecePoly x0 x1 y0 y1 s0 s1).derivative.derivative.eval x0 = s0 := by
  have hh : x1 - x0 ≠ 0 := sub_ne_zero.mpr h.symm
  rw [piecePoly_deriv2 h, div_self hh, sub_self, zero_div]
  ring

theorem piecePoly_deriv2_right {x0 x1 : ℝ} (h : x0 ≠ x1) (y0 y1 s0 s1 : ℝ) :
    (piecePoly x0 x1 y0 y1 s0 s1).derivative.derivative.eval x1 = s1 := by
  have hh : x1 - x0 ≠ 0 := sub_ne_zero.mpr h.symm
  rw [piecePoly_deriv2 h, div_self hh, sub_self, zero_div]
  ring

/-- The polynomials agree at the knots, with two derivatives. -/
theorem Sec.glue (h : Sec σ l x y yp1 ypn M) {i : ℕ} (hi : i + 2 < l + 2) :
    (pp x y M i).eval (x (i + 1)) = (pp x y M (i + 1)).eval (x (i + 1)) ∧
    (pp x y M i).derivative.eval (x (i + 1)) = (pp x y M (i + 1)).derivative.eval (x (i + 1)) ∧
    (pp x y M i).derivative.derivative.eval (x (i + 1)) = (pp x y M (i + 1)).derivative.derivative.eval (x (i + 1)) := by
  have h1 := h.ne (i := i) (by omega)
  have h2 := h.ne (i := i + 1) (by omega)
  refine ⟨?_, ?_, ?_⟩
  · rw [pp, pp, piecePoly_right h1, piecePoly_left h2]
  · rw [pp, pp, piecePoly_deriv_right h1, piecePoly_deriv_left h2]
    have := h.inner i (by omega)
    rw [InnerEq] at this
    simp only [show i + 1 + 1 = i + 2 from rfl]
    linear_combination this / 6
  · rw [pp, pp, piecePoly_deriv2_right h1, piecePoly_deriv2_left h2]

/-- The spline as a function and its derivatives. -/
noncomputable def S0 (l : ℕ) (x y M : ℕ → ℝ) (z : ℝ) : ℝ := (pp x y M (loc l x y z)).eval z

/-- The first derivative. -/
noncomputable def S1 (l : ℕ) (x y M : ℕ → ℝ) (z : ℝ) : ℝ := (pp x y M (loc l x y z)).derivative.eval z

/-- The second derivative. -/
noncomputable def S2 (l : ℕ) (x y M : ℕ → ℝ) (z : ℝ) : ℝ := (pp x y M (loc l x y z)).derivative.derivative.eval z

theorem Sec.pieces0 (h : Sec σ l x y yp1 ypn M) : Pieces σ (l + 2) x (S0 l x y M) (fun i z => (pp x y M i).eval z) :=
  Pieces.of_loc h.ord (loc l x y) (loc_cell h.ord) (fun _ => rfl) fun _ hi => (h.glue hi).1

theorem Sec.pieces1 (h : Sec σ l x y yp1 ypn M) : Pieces σ (l + 2) x (S1 l x y M) (fun i z => (pp x y M i).derivative.eval z) :=
  Pieces.of_loc h.ord (loc l x y) (loc_cell h.ord) (fun _ => rfl) fun _ hi => (h.glue hi).2.1

theorem Sec.pieces2 (h : Sec σ l x y yp1 ypn M) :
    Pieces σ (l + 2) x (S2 l x y M) (fun i z => (pp x y M i).derivative.derivative.eval z) :=
  Pieces.of_loc h.ord (loc l x y) (loc_cell h.ord) (fun _ => rfl) fun _ hi => (h.glue hi).2.2

theorem Sec.hasDerivAt0 (h : Sec σ l x y yp1 ypn M) (z : ℝ) : HasDerivAt (S0 l x y M) (S1 l x y M z) z := by
  refine h.pieces0.hasDerivAt fun i hi => ?_
  rw [h.pieces1.eq z i hi]
  exact (pp x y M i).hasDerivAt z

theorem Sec.hasDerivAt1 (h : Sec σ l x y yp1 ypn M) (z : ℝ) : HasDerivAt (S1 l x y M) (S2 l x y M z) z := by
  refine h.pieces1.hasDerivAt fun i hi => ?_
  rw [h.pieces2.eq z i hi]
  exact (pp x y M i).derivative.hasDerivAt z

theorem Sec.continuous2 (h : Sec σ l x y yp1 ypn M) : Continuous (S2 l x y M) := by
  rw [continuous_iff_continuousAt]
  intro z
  exact h.pieces2.continuousAt fun i _ => ((pp x y M i).derivative.derivative.hasDerivAt z).continuousAt

theorem Sec.deriv0 (h : Sec σ l x y yp1 ypn M) : deriv (S0 l x y M) = S1 l x y M := funext fun z => (h.hasDerivAt0 z).deriv

theorem Sec.deriv1 (h : Sec σ l x y yp1 ypn M) : deriv (S1 l x y M) = S2 l x y M := funext fun z => (h.hasDerivAt1 z).deriv

theorem contDiff_two_of {f f1 f2 : ℝ → ℝ} (h0 : ∀ z, HasDerivAt f (f1 z) z) (h1 : ∀ z, HasDerivAt f1 (f2 z) z) (h2 : Continuous f2) :
    ContDiff ℝ 2 f := by
  have e0 : deriv f = f1 := funext fun z => (h0 z).deriv
  have e1 : deriv f1 = f2 := funext fun z => (h1 z).deriv
  rw [show (2 : WithTop ℕ∞) = 1 + 1 by norm_num, contDiff_succ_iff_deriv]
  refine ⟨fun z => (h0 z).differentiableAt, fun h => absurd h (by simp), ?_⟩
  rw [e0, contDiff_one_iff_deriv, e1]
  exact ⟨fun z => (h1 z).differentiableAt, h2⟩

theorem Cell.of_between (hx : Ordered σ (l + 2) x) {i : ℕ} (hi : i + 1 < l + 2) {z : ℝ} (hz : Between (x i) z (x (i + 1))) :
    Cell σ (l + 2) x z i := by
  have h1 := hx.lt i (i + 1) (by omega) hi
  refine ⟨hi, Or.inr ?_, Or.inr ?_⟩
  · rcases hx.dir with rfl | rfl <;> rcases hz with hz | hz <;> linarith [hz.1, hz.2]
  · rcases hx.dir with rfl | rfl <;> rcases hz with hz | hz <;> linarith [hz.1, hz.2]

theorem Sec.cell_knot (h : Sec σ l x y yp1 ypn M) {i : ℕ} (hi : i < l + 2) :
    ∃ k, Cell σ (l + 2) x (x i) k ∧ (k = i ∨ k + 1 = i) := by
  by_cases h1 : i + 1 < l + 2
  · have := h.ord.lt i (i + 1) (by omega) h1
    exact ⟨i, ⟨h1, Or.inr le_rfl, Or.inr this.le⟩, Or.inl rfl⟩
  · obtain rfl : i = l + 1 := by omega
    have := h.ord.lt l (l + 1) (by omega) hi
    exact ⟨l, ⟨by omega, Or.inr this.le, Or.inl rfl⟩, Or.inr rfl⟩

theorem Sec.value (h : Sec σ l x y yp1 ypn M) {i : ℕ} (hi : i < l + 2) : S0 l x y M (x i) = y i := by
  obtain ⟨k, hk, rfl | rfl⟩ := h.cell_knot hi
  · rw [h.pieces0.eq _ _ hk, pp, piecePoly_left (h.ne hk.lt)]
  · rw [h.pieces0.eq _ _ hk, pp, piecePoly_right (h.ne hk.lt)]

theorem Sec.second (h : Sec σ l x y yp1 ypn M) {i : ℕ} (hi : i < l + 2) : S2 l x y M (x i) = M i := by
  obtain ⟨k, hk, rfl | rfl⟩ := h.cell_knot hi
  · rw [h.pieces2.eq _ _ hk, pp, piecePoly_deriv2_left (h.ne hk.lt)]
  · rw [h.pieces2.eq _ _ hk, pp, piecePoly_deriv2_right (h.ne hk.lt)]

theorem Sec.spline (h : Sec σ l x y yp1 ypn M) : CubicSpline (l + 2) x y (S0 l x y M) :=
  ⟨contDiff_two_of h.hasDerivAt0 h.hasDerivAt1 h.continuous2, fun _ => h.value, fun i hi =>
    ⟨pp x y M i, piecePoly_degree _ _ _ _ _ _, fun z hz => h.pieces0.eq z i (Cell.of_between h.ord hi hz)⟩⟩

theorem Sec.left (h : Sec σ l x y yp1 ypn M) : if yp1 > 99 / 100 * 10 ^ 99 then S2 l x y M (x 0) = 0 else S1 l x y M (x 0) = yp1 := by
  have hf := h.first
  rw [FirstEq] at hf
  split_ifs at hf ⊢
  · rw [h.second (by omega), hf]
  · have hk : Cell σ (l + 2) x (x 0) 0 :=
      ⟨by omega, Or.inl rfl, Or.inr (h.ord.lt 0 1 (by omega) (by omega)).le⟩
    rw [h.pieces1.eq _ _ hk, pp, piecePoly_deriv_left (h.ne (by omega))]
    simp only [Nat.zero_add]
    linear_combination -hf / 6

theorem Sec.right (h : Sec σ l x y yp1 ypn M) :
    if ypn > 99 / 100 * 10 ^ 99 then S2 l x y M (x (l + 1)) = 0 else S1 l x y M (x (l + 1)) = ypn := by
  have hf := h.last
  rw [LastEq] at hf
  split_ifs at hf ⊢
  · rw [h.second (by omega), hf]
  · have hk : Cell σ (l + 2) x (x (l + 1)) l :=
      ⟨by omega, Or.inr (h.ord.lt l (l + 1) (by omega) (by omega)).le, Or.inl rfl⟩
    rw [h.pieces1.eq _ _ hk, pp, piecePoly_deriv_right (h.ne (by omega))]
    linear_combination hf / 6

/-- The spline object of a table. -/
noncomputable def obj (l : ℕ) (x y M : ℕ → ℝ) : Spline := ⟨⟨tab (l + 2) x, tab (l + 2) y, 2⟩, tab (l + 2) M⟩

theorem Sec.eval (h : Sec σ l x y yp1 ypn M) (z : ℝ) : (obj l x y M).eval z = .ret (S0 l x y M z) := by
  have hc := loc_cell (y := y) h.ord z
  rw [Spline.eval, Spline.calc, obj]
  dsimp only
  rw [show (⟨tab (l + 2) x, tab (l + 2) y, 2⟩ : Table).locate z = loc l x y z from rfl, piece_eq hc.lt (h.ne hc.lt)]
  simp only [Outcome.bind_ret]
  rw [S0, pp, piecePoly_eval]
  congr 1
  ring

theorem Sec.derivative (h : Sec σ l x y yp1 ypn M) (z : ℝ) : (obj l x y M).derivative z = .ret (S1 l x y M z) := by
  have hc := loc_cell (y := y) h.ord z
  rw [Spline.derivative, obj]
  dsimp only
  rw [show (⟨tab (l + 2) x, tab (l + 2) y, 2⟩ : Table).locate z = loc l x y z from rfl, piece_eq hc.lt (h.ne hc.lt)]
  simp only [Outcome.bind_ret]
  rw [S1, pp, piecePoly_deriv (h.ne hc.lt)]
  congr 1
  ring

theorem Sec.secondDerivative (h : Sec σ l x y yp1 ypn M) (z : ℝ) : (obj l x y M).secondDerivative z = .ret (S2 l x y M z) := by
  have hc := loc_cell (y := y) h.ord z
  rw [Spline.secondDerivative, obj]
  dsimp only
  rw [show (⟨tab (l + 2) x, tab (l + 2) y, 2⟩ : Table).locate z = loc l x y z from rfl, piece_eq hc.lt (h.ne hc.lt)]
  simp only [Outcome.bind_ret]
  rw [S2, pp, piecePoly_deriv2 (h.ne hc.lt)]

end

end Verif.Interp
