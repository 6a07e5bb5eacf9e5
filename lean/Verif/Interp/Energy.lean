import Verif.Interp.Spec
import Mathlib.Analysis.Calculus.Deriv.Polynomial
import Mathlib.Analysis.Calculus.ContDiff.Deriv
import Mathlib.Analysis.Calculus.MeanValue
import Mathlib.Analysis.Calculus.ContDiff.Operations
import Mathlib.Topology.Algebra.Polynomial
import Mathlib.MeasureTheory.Integral.IntervalIntegral.IntegrationByParts
import Mathlib.Tactic.Linarith
import Mathlib.Tactic.NormNum

/-!
# The curvature of a cubic spline

Classical facts about cubic splines; does not refer to the model.
-/

set_option autoImplicit false

namespace Verif.Interp

open Set Polynomial MeasureTheory intervalIntegral

theorem second_facts {f : ℝ → ℝ} (h : ContDiff ℝ 2 f) :
    (∀ z, HasDerivAt f (deriv f z) z) ∧ (∀ z, HasDerivAt (deriv f) (deriv (deriv f) z) z) ∧ Continuous (deriv f) ∧
      Continuous (deriv (deriv f)) := by
  rw [show (2 : WithTop ℕ∞) = 1 + 1 by norm_num, contDiff_succ_iff_deriv] at h
  obtain ⟨h0, -, h1⟩ := h
  have hc := h1.continuous
  rw [contDiff_one_iff_deriv] at h1
  exact ⟨fun z => (h0 z).hasDerivAt, fun z => (h1.1 z).hasDerivAt, hc, h1.2⟩

/-- A smooth function that is a polynomial on an interval has the derivatives of that polynomial there. -/
theorem second_eq {f : ℝ → ℝ} (h : ContDiff ℝ 2 f) (p : ℝ[X]) {a b : ℝ} (hab : a < b) (hp : ∀ z ∈ Icc a b, f z = p.eval z) :
    ∀ z ∈ Icc a b, deriv (deriv f) z = p.derivative.derivative.eval z := by
  have hin : ∀ z ∈ Ioo a b, deriv (deriv f) z = p.derivative.derivative.eval z := by
    intro z hz
    have e1 : ∀ w ∈ Ioo a b, deriv f w = p.derivative.eval w := by
      intro w hw
      have : f =ᶠ[nhds w] fun z => p.eval z := by
        filter_upwards [Ioo_mem_nhds hw.1 hw.2] with v hv
        exact hp v ⟨hv.1.le, hv.2.le⟩
      rw [this.deriv_eq, Polynomial.deriv]
    have : deriv f =ᶠ[nhds z] fun z => p.derivative.eval z := by
      filter_upwards [Ioo_mem_nhds hz.1 hz.2] with v hv
      exact e1 v hv
    rw [this.deriv_eq, Polynomial.deriv]
  have hcl : closure (Ioo a b) = Icc a b := closure_Ioo hab.ne
  intro z hz
  rw [← hcl] at hz
  have h1 : IsClosed {z | deriv (deriv f) z = p.derivative.derivative.eval z} :=
    isClosed_eq (second_facts h).2.2.2 p.derivative.derivative.continuous
  exact closure_minimal hin h1 hz

/-- One interval: a curvature that is linear is orthogonal to the curvature of what vanishes at the ends, but for the boundary terms. -/
theorem energy_piece {D : ℝ → ℝ} (hD : ContDiff ℝ 2 D) (p : ℝ[X]) (hp : p.natDegree ≤ 3) {a b : ℝ} (ha : D a = 0) (hb : D b = 0) :
    ∫ z in a..b, p.derivative.derivative.eval z * deriv (deriv D) z =
      p.derivative.derivative.eval b * deriv D b - p.derivative.derivative.eval a * deriv D a := by
  obtain ⟨h0, h1, c1, c2⟩ := second_facts hD
  rw [integral_mul_deriv_eq_deriv_mul (u := fun z => p.derivative.derivative.eval z) (v := deriv D)
    (u' := fun z => p.derivative.derivative.derivative.eval z) (fun z _ => p.derivative.derivative.hasDerivAt z) (fun z _ => h1 z)
    (p.derivative.derivative.derivative.continuous.intervalIntegrable _ _) (c2.intervalIntegrable _ _)]
  have hc : ∃ c, p.derivative.derivative.derivative = C c := by
    refine ⟨_, eq_C_of_natDegree_le_zero ?_⟩
    have := natDegree_derivative_le p
    have := natDegree_derivative_le p.derivative
    have := natDegree_derivative_le p.derivative.derivative
    omega
  obtain ⟨c, hc⟩ := hc
  rw [hc]
  simp only [eval_C]
  rw [intervalIntegral.integral_const_mul, integral_eq_sub_of_hasDerivAt (fun z _ => h0 z) (c1.intervalIntegrable _ _), ha, hb]
  ring

theorem Increasing.strict {n : ℕ} {x : ℕ → ℝ} (h : Increasing n x) {i : ℕ} (hi : i + 1 < n) : x i < x (i + 1) :=
  h i (i + 1) (Nat.lt_succ_self i) hi

/-- The curvature of a spline is orthogonal to that of what vanishes at the points, but for the boundary terms. -/
theorem energy {l : ℕ} {x y : ℕ → ℝ} (hx : Increasing (l + 2) x) {S D : ℝ → ℝ} (hS : CubicSpline (l + 2) x y S) (hD : ContDiff ℝ 2 D)
    (h0 : ∀ i < l + 2, D (x i) = 0) :
    ∫ z in x 0..x (l + 1), deriv (deriv S) z * deriv (deriv D) z =
      deriv (deriv S) (x (l + 1)) * deriv D (x (l + 1)) - deriv (deriv S) (x 0) * deriv D (x 0) := by
  have hc : Continuous fun z => deriv (deriv S) z * deriv (deriv D) z := (second_facts hS.smooth).2.2.2.mul (second_facts hD).2.2.2
  rw [← sum_integral_adjacent_intervals (fun k _ => hc.intervalIntegrable _ _)]
  rw [← Finset.sum_range_sub (fun i => deriv (deriv S) (x i) * deriv D (x i))]
  refine Finset.sum_congr rfl fun i hi => ?_
  rw [Finset.mem_range] at hi
  obtain ⟨p, hp, hpe⟩ := hS.cubic i (by omega)
  have hlt := hx.strict (i := i) (by omega)
  have h2 := second_eq hS.smooth p hlt fun z hz => hpe z (Or.inl hz)
  rw [h2 _ ⟨le_rfl, hlt.le⟩, h2 _ ⟨hlt.le, le_rfl⟩, ← energy_piece hD p hp (h0 i (by omega)) (h0 (i + 1) (by omega))]
  refine integral_congr fun z hz => ?_
  rw [uIcc_of_le hlt.le] at hz
  rw [h2 z hz]

/-- A function without curvature that vanishes at two points of an interval vanishes there. -/
theorem zero_of_flat {D : ℝ → ℝ} (hD : ContDiff ℝ 2 D) {a b c : ℝ} (hac : a < c) (hcb : c ≤ b) (ha : D a = 0) (hc : D c = 0)
    (h : ∀ z ∈ Icc a b, deriv (deriv D) z = 0) : ∀ z ∈ Icc a b, D z = 0 := by
  obtain ⟨h0, h1, c1, c2⟩ := second_facts hD
  have hk : ∀ z ∈ Icc a b, deriv D z = deriv D a := by
    refine constant_of_has_deriv_right_zero c1.continuousOn fun z hz => ?_
    have := (h1 z).hasDerivWithinAt (s := Ici z)
    rwa [h z ⟨hz.1, hz.2.le⟩] at this
  have hl : ∀ z ∈ Icc a b, D z - deriv D a * (z - a) = D a - deriv D a * (a - a) := by
    refine constant_of_has_deriv_right_zero (f := fun z => D z - deriv D a * (z - a)) ?_ fun z hz => ?_
    · exact (hD.continuous.sub (continuous_const.mul (continuous_id.sub continuous_const))).continuousOn
    · have h2 : HasDerivAt (fun z => D z - deriv D a * (z - a)) (deriv D z - deriv D a * 1) z :=
        (h0 z).sub (((hasDerivAt_id z).sub_const a).const_mul _)
      rw [hk z ⟨hz.1, hz.2.le⟩, mul_one, sub_self] at h2
      exact h2.hasDerivWithinAt
  have h3 := hl c ⟨hac.le, hcb⟩
  rw [ha, hc, sub_self, mul_zero, sub_zero, zero_sub, neg_eq_zero] at h3
  have h4 : deriv D a = 0 := by
    rcases mul_eq_zero.mp h3 with h | h
    · exact h
    · linarith
  intro z hz
  have := hl z hz
  rw [ha, h4] at this
  linarith

theorem EndCondition.prod {yp a1 a2 b1 b2 : ℝ} (h1 : EndCondition yp a1 a2) (h2 : EndCondition yp b1 b2) : (a2 - b2) * (a1 - b1) = 0 := by
  rw [EndCondition] at h1 h2
  split_ifs at h1 h2
  · rw [h1, h2]; ring
  · rw [h1, h2]; ring

theorem deriv_sub2 {S T : ℝ → ℝ} (hS : ContDiff ℝ 2 S) (hT : ContDiff ℝ 2 T) :
    deriv (fun z => S z - T z) = (fun z => deriv S z - deriv T z) ∧
    deriv (deriv fun z => S z - T z) = fun z => deriv (deriv S) z - deriv (deriv T) z := by
  obtain ⟨s0, s1, -, -⟩ := second_facts hS
  obtain ⟨t0, t1, -, -⟩ := second_facts hT
  have e : deriv (fun z => S z - T z) = (fun z => deriv S z - deriv T z) := funext fun z => ((s0 z).sub (t0 z)).deriv
  refine ⟨e, ?_⟩
  rw [e]
  exact funext fun z => ((s1 z).sub (t1 z)).deriv

/-- There is only one cubic spline through the points with given conditions at the ends. -/
theorem CubicSpline.unique {l : ℕ} {x y : ℕ → ℝ} (hx : Increasing (l + 2) x) {S T : ℝ → ℝ} (hS : CubicSpline (l + 2) x y S)
    (hT : CubicSpline (l + 2) x y T) {yp1 ypn : ℝ}
    (s1 : EndCondition yp1 (deriv S (x 0)) (deriv (deriv S) (x 0))) (t1 : EndCondition yp1 (deriv T (x 0)) (deriv (deriv T) (x 0)))
    (sn : EndCondition ypn (deriv S (x (l + 1))) (deriv (deriv S) (x (l + 1))))
    (tn : EndCondition ypn (deriv T (x (l + 1))) (deriv (deriv T) (x (l + 1)))) : ∀ z ∈ Icc (x 0) (x (l + 1)), S z = T z := by
  have hD : CubicSpline (l + 2) x (fun _ => 0) fun z => S z - T z := by
    refine ⟨hS.smooth.sub hT.smooth, fun i hi => ?_, fun i hi => ?_⟩
    · rw [hS.values i hi, hT.values i hi, sub_self]
    · obtain ⟨p, hp, hpe⟩ := hS.cubic i hi
      obtain ⟨q, hq, hqe⟩ := hT.cubic i hi
      refine ⟨p - q, (natDegree_sub_le p q).trans (max_le hp hq), fun z hz => ?_⟩
      rw [hpe z hz, hqe z hz, eval_sub]
  have he := energy hx hD hD.smooth fun i hi => hD.values i hi
  obtain ⟨d1, d2⟩ := deriv_sub2 hS.smooth hT.smooth
  have hb1 := s1.prod t1
  have hbn := sn.prod tn
  have hfl : ∀ z ∈ Icc (x 0) (x (l + 1)), deriv (deriv fun z => S z - T z) z = 0 := by
    by_contra hcon
    push Not at hcon
    obtain ⟨c, hc, hne⟩ := hcon
    have hpos := intervalIntegral.integral_pos (f := fun z => deriv (deriv fun z => S z - T z) z * deriv (deriv fun z => S z - T z) z)
      (hx 0 (l + 1) (by omega) (by omega))
      (((second_facts hD.smooth).2.2.2.mul (second_facts hD.smooth).2.2.2).continuousOn) (fun z _ => mul_self_nonneg _)
      ⟨c, hc, mul_self_pos.mpr hne⟩
    rw [he, d2, d1] at hpos
    dsimp only at hpos
    rw [hb1, hbn] at hpos
    linarith
  have hle : x 1 ≤ x (l + 1) := by
    rcases Nat.eq_zero_or_pos l with rfl | hl
    · exact le_rfl
    · exact (hx 1 (l + 1) (by omega) (by omega)).le
  intro z hz
  have := zero_of_flat hD.smooth (hx 0 1 (by omega) (by omega)) hle (hD.values 0 (by omega)) (hD.values 1 (by omega)) hfl z hz
  linarith

/-- Among all twice continuously differentiable functions through the points, with the slopes prescribed at the ends, the spline has
the least curvature. -/
theorem CubicSpline.least {l : ℕ} {x y : ℕ → ℝ} (hx : Increasing (l + 2) x) {S g : ℝ → ℝ} (hS : CubicSpline (l + 2) x y S)
    (hg : ContDiff ℝ 2 g) (hgy : ∀ i < l + 2, g (x i) = y i) {yp1 ypn : ℝ}
    (s1 : EndCondition yp1 (deriv S (x 0)) (deriv (deriv S) (x 0)))
    (sn : EndCondition ypn (deriv S (x (l + 1))) (deriv (deriv S) (x (l + 1))))
    (g1 : yp1 ≤ 99 / 100 * 10 ^ 99 → deriv g (x 0) = yp1) (gn : ypn ≤ 99 / 100 * 10 ^ 99 → deriv g (x (l + 1)) = ypn) :
    ∫ z in x 0..x (l + 1), (deriv (deriv S) z) ^ 2 ≤ ∫ z in x 0..x (l + 1), (deriv (deriv g) z) ^ 2 := by
  have hle := (hx 0 (l + 1) (by omega) (by omega)).le
  have hD : ContDiff ℝ 2 fun z => g z - S z := hg.sub hS.smooth
  have he := energy hx hS hD fun i hi => by rw [hgy i hi, hS.values i hi, sub_self]
  obtain ⟨d1, d2⟩ := deriv_sub2 hg hS.smooth
  have b1 : deriv (deriv S) (x 0) * (deriv g (x 0) - deriv S (x 0)) = 0 := by
    rw [EndCondition] at s1
    split_ifs at s1 with hc
    · rw [s1, zero_mul]
    · rw [g1 (not_lt.mp hc), s1, sub_self, mul_zero]
  have bn : deriv (deriv S) (x (l + 1)) * (deriv g (x (l + 1)) - deriv S (x (l + 1))) = 0 := by
    rw [EndCondition] at sn
    split_ifs at sn with hc
    · rw [sn, zero_mul]
    · rw [gn (not_lt.mp hc), sn, sub_self, mul_zero]
  rw [d2, d1] at he
  dsimp only at he
  rw [b1, bn, sub_zero] at he
  have cS := (second_facts hS.smooth).2.2.2
  have cg := (second_facts hg).2.2.2
  have e : ∫ z in x 0..x (l + 1), (deriv (deriv g) z) ^ 2 =
      ∫ z in x 0..x (l + 1), ((deriv (deriv S) z) ^ 2 + 2 * (deriv (deriv S) z * (deriv (deriv g) z - deriv (deriv S) z)) +
        (deriv (deriv g) z - deriv (deriv S) z) ^ 2) := by
    congr 1
    funext z
    ring
  rw [e, intervalIntegral.integral_add, intervalIntegral.integral_add, intervalIntegral.integral_const_mul, he]
  · have : 0 ≤ ∫ z in x 0..x (l + 1), (deriv (deriv g) z - deriv (deriv S) z) ^ 2 :=
      intervalIntegral.integral_nonneg hle fun z _ => sq_nonneg _
    linarith
  · exact (cS.pow 2).intervalIntegrable _ _
  · exact (continuous_const.mul (cS.mul (cg.sub cS))).intervalIntegrable _ _
  · exact ((cS.pow 2).add (continuous_const.mul (cS.mul (cg.sub cS)))).intervalIntegrable _ _
  · exact ((cg.sub cS).pow 2).intervalIntegrable _ _

end Verif.Interp
