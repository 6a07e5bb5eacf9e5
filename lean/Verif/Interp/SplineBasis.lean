import Verif.Interp.SplineProps
import Verif.Interp.GridModel

/-!
# Natural splines depend linearly on the values
-/

set_option autoImplicit false

namespace Verif.Interp

open Verif Polynomial Finset

variable {σ : ℝ} {l : ℕ} {x : ℕ → ℝ}

/-- The homogeneous equations of a natural spline have only the solution zero. -/
theorem max_zero (l : ℕ) (E h : ℕ → ℝ) (hpos : ∀ i, i ≤ l → 0 < h i) (h0 : E 0 = 0) (hl : E (l + 1) = 0)
    (hin : ∀ i, i < l → h i * E i + 2 * (h i + h (i + 1)) * E (i + 1) + h (i + 1) * E (i + 2) = 0) : ∀ i, i < l + 2 → E i = 0 := by
  obtain ⟨j, hj, hmax⟩ := Finset.exists_max_image (Finset.range (l + 2)) (fun i => |E i|) ⟨0, Finset.mem_range.mpr (by omega)⟩
  rw [Finset.mem_range] at hj
  have hm : ∀ i, i < l + 2 → |E i| ≤ |E j| := fun i hi => hmax i (Finset.mem_range.mpr hi)
  suffices |E j| ≤ 0 from fun i hi => abs_nonpos_iff.mp ((hm i hi).trans this)
  rcases Nat.eq_zero_or_pos j with rfl | hj0
  · rw [h0, abs_zero]
  · obtain ⟨k, rfl⟩ : ∃ k, j = k + 1 := ⟨j - 1, by omega⟩
    rcases Nat.lt_or_ge k l with hk | hk
    · have hp := hpos k (by omega)
      have hp1 := hpos (k + 1) (by omega)
      have h1 := hm k (by omega)
      have h2 := hm (k + 2) (by omega)
      have h3 := hin k hk
      have h4 : |2 * (h k + h (k + 1)) * E (k + 1)| ≤ |h k * E k| + |h (k + 1) * E (k + 2)| := by
        have e : 2 * (h k + h (k + 1)) * E (k + 1) = -(h k * E k) - h (k + 1) * E (k + 2) := by linarith
        rw [e]
        have := abs_sub (-(h k * E k)) (h (k + 1) * E (k + 2))
        rwa [abs_neg] at this
      rw [abs_mul, abs_mul (h k), abs_mul (h (k + 1)), abs_of_pos hp, abs_of_pos hp1, abs_of_pos (by linarith : 0 < 2 * (h k + h (k + 1)))] at h4
      have h5 : (h k + h (k + 1)) * |E (k + 1)| ≤ (h k + h (k + 1)) * 0 := by
        nlinarith [mul_le_mul_of_nonneg_left h1 hp.le, mul_le_mul_of_nonneg_left h2 hp1.le]
      exact le_of_mul_le_mul_left h5 (by linarith)
    · obtain rfl : k = l := by omega
      rw [hl, abs_zero]

theorem natural_big : naturalEnd > 99 / 100 * 10 ^ 99 := by
  rw [naturalEnd]
  norm_num

theorem Sec.unique {y M M' : ℕ → ℝ} (h : Sec σ l x y naturalEnd naturalEnd M) (h' : Sec σ l x y naturalEnd naturalEnd M') :
    ∀ i, i < l + 2 → M i = M' i := by
  have f1 := h.first
  have f2 := h'.first
  have l1 := h.last
  have l2 := h'.last
  rw [FirstEq, if_pos natural_big] at f1 f2
  rw [LastEq, if_pos natural_big] at l1 l2
  have hs := h.ord.sq
  have := max_zero l (fun i => M i - M' i) (fun i => σ * (x (i + 1) - x i))
    (fun i hi => by have := h.ord.lt i (i + 1) (by omega) (by omega); linarith)
    (by rw [f1, f2, sub_zero]) (by rw [l1, l2, sub_zero])
    (fun i hi => by
      have a := h.inner i hi
      have b := h'.inner i hi
      rw [InnerEq] at a b
      rw [show i + 1 + 1 = i + 2 by ring]
      linear_combination σ * (a - b))
  exact fun i hi => sub_eq_zero.mp (this i hi)

/-- The values of a unit vector. -/
def unitAt (k i : ℕ) : ℝ := if i = k then 1 else 0

theorem sum_unitAt (n : ℕ) (y : ℕ → ℝ) {i : ℕ} (hi : i < n) : ∑ k ∈ range n, y k * unitAt k i = y i := by
  rw [sum_eq_single i]
  · rw [unitAt, if_pos rfl, mul_one]
  · intro k _ hk
    rw [unitAt, if_neg (Ne.symm hk), mul_zero]
  · intro h
    exact absurd (mem_range.mpr hi) h

theorem Sec.congr {y y' M M' : ℕ → ℝ} {yp1 ypn : ℝ} (h : Sec σ l x y yp1 ypn M) (hy : ∀ i < l + 2, y' i = y i) (hM : ∀ i < l + 2, M' i = M i) :
    Sec σ l x y' yp1 ypn M' := by
  refine ⟨h.ord, ?_, ?_, fun i hi => ?_⟩
  · have := h.first
    rw [FirstEq] at this ⊢
    rw [hy 0 (by omega), hy 1 (by omega), hM 0 (by omega), hM 1 (by omega)]
    exact this
  · have := h.last
    rw [LastEq] at this ⊢
    rw [hy l (by omega), hy (l + 1) (by omega), hM l (by omega), hM (l + 1) (by omega)]
    exact this
  · have := h.inner i hi
    rw [InnerEq] at this ⊢
    rw [hy i (by omega), hy (i + 1) (by omega), hy (i + 2) (by omega), hM i (by omega), hM (i + 1) (by omega), hM (i + 2) (by omega)]
    exact this

/-- Natural splines add up. -/
theorem Sec.combine (hx : Ordered σ (l + 2) x) (N : ℕ → ℕ → ℝ) (hN : ∀ k, Sec σ l x (unitAt k) naturalEnd naturalEnd (N k)) (y : ℕ → ℝ) :
    Sec σ l x y naturalEnd naturalEnd fun i => ∑ k ∈ range (l + 2), y k * N k i := by
  refine Sec.congr (y := fun i => ∑ k ∈ range (l + 2), y k * unitAt k i) (M := fun i => ∑ k ∈ range (l + 2), y k * N k i) ⟨hx, ?_, ?_, fun i hi => ?_⟩
    (fun i hi => (sum_unitAt (l + 2) y hi).symm) fun _ _ => rfl
  · rw [FirstEq, if_pos natural_big]
    refine sum_eq_zero fun k _ => ?_
    have := (hN k).first
    rw [FirstEq, if_pos natural_big] at this
    rw [this, mul_zero]
  · rw [LastEq, if_pos natural_big]
    refine sum_eq_zero fun k _ => ?_
    have := (hN k).last
    rw [LastEq, if_pos natural_big] at this
    rw [this, mul_zero]
  · rw [InnerEq, ← sum_sub_distrib, ← sum_sub_distrib, sum_div, sum_div, ← sum_sub_distrib, mul_sum, mul_sum, mul_sum, mul_sum,
      ← sum_add_distrib, ← sum_add_distrib]
    refine sum_congr rfl fun k _ => ?_
    have := (hN k).inner i hi
    rw [InnerEq] at this
    linear_combination y k * this

theorem pp_sum (n : ℕ) (y : ℕ → ℝ) (N : ℕ → ℕ → ℝ) (hn : ∀ i, i < n → y i = ∑ k ∈ range n, y k * unitAt k i) (i : ℕ) (hi : i + 1 < n) :
    pp x y (fun i => ∑ k ∈ range n, y k * N k i) i = ∑ k ∈ range n, C (y k) * pp x (unitAt k) (N k) i := by
  have e0 := hn i (by omega)
  have e1 := hn (i + 1) hi
  have : pp x y (fun i => ∑ k ∈ range n, y k * N k i) i =
      piecePoly (x i) (x (i + 1)) (∑ k ∈ range n, y k * unitAt k i) (∑ k ∈ range n, y k * unitAt k (i + 1))
        (∑ k ∈ range n, y k * N k i) (∑ k ∈ range n, y k * N k (i + 1)) := by
    rw [← e0, ← e1, pp]
  rw [this, piecePoly]
  simp only [map_sum, map_mul, mul_sum, sum_mul, ← sum_add_distrib]
  refine sum_congr rfl fun k _ => ?_
  rw [pp, piecePoly]
  ring

/-- The splines with one value one and the others zero: every natural spline is a combination of them. -/
theorem natural_basis (hx : Ordered σ (l + 2) x) : ∃ W : ℕ → ℝ → ℝ,
    (∀ k, CubicSpline (l + 2) x (unitAt k) (W k) ∧ deriv (deriv (W k)) (x 0) = 0 ∧ deriv (deriv (W k)) (x (l + 1)) = 0) ∧
    ∀ y, ∃ f, Spline.new (tab (l + 2) x) (tab (l + 2) y) naturalEnd naturalEnd = .ret f ∧
      ∀ z, f.eval z = .ret (∑ k ∈ range (l + 2), y k * W k z) ∧ f.derivative z = .ret (∑ k ∈ range (l + 2), y k * deriv (W k) z) := by
  choose N _ hN using fun k => spline_new hx (unitAt k) naturalEnd naturalEnd
  refine ⟨fun k => S0 l x (unitAt k) (N k), fun k => ⟨(hN k).spline, ?_, ?_⟩, fun y => ?_⟩
  · rw [(hN k).deriv0, (hN k).deriv1]
    have := (hN k).left
    rwa [if_pos natural_big] at this
  · rw [(hN k).deriv0, (hN k).deriv1]
    have := (hN k).right
    rwa [if_pos natural_big] at this
  · obtain ⟨M, hM, hsec⟩ := spline_new hx y naturalEnd naturalEnd
    have hc := Sec.combine hx N hN y
    have hMe := hsec.unique hc
    have htab : tab (l + 2) M = tab (l + 2) fun i => ∑ k ∈ range (l + 2), y k * N k i := tab_congr hMe
    rw [htab] at hM
    refine ⟨_, hM, fun z => ⟨?_, ?_⟩⟩
    · rw [show (⟨⟨tab (l + 2) x, tab (l + 2) y, 2⟩, tab (l + 2) fun i => ∑ k ∈ range (l + 2), y k * N k i⟩ : Spline) =
        obj l x y (fun i => ∑ k ∈ range (l + 2), y k * N k i) from rfl, hc.eval]
      rw [S0, pp_sum (l + 2) y N (fun i hi => (sum_unitAt (l + 2) y hi).symm) _ (loc_cell hx z).lt, eval_finsetSum]
      refine congrArg _ (sum_congr rfl fun k _ => ?_)
      rw [eval_mul, eval_C]
      rfl
    · rw [show (⟨⟨tab (l + 2) x, tab (l + 2) y, 2⟩, tab (l + 2) fun i => ∑ k ∈ range (l + 2), y k * N k i⟩ : Spline) =
        obj l x y (fun i => ∑ k ∈ range (l + 2), y k * N k i) from rfl, hc.derivative]
      rw [S1, pp_sum (l + 2) y N (fun i hi => (sum_unitAt (l + 2) y hi).symm) _ (loc_cell hx z).lt, derivative_sum, eval_finsetSum]
      refine congrArg _ (sum_congr rfl fun k _ => ?_)
      rw [derivative_C_mul, eval_mul, eval_C, (hN k).deriv0]
      rfl

end Verif.Interp
