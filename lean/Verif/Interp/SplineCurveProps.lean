import Verif.Interp.LinCurveProps

/-!
# C87: curves through points, with cubic splines
-/

set_option autoImplicit false

namespace Verif.Interp

open Verif Polynomial Finset

theorem endSlope_eq {x0 x1 x2 x3 y0 y1 y2 y3 : ℝ} (h01 : x0 ≠ x1) (h02 : x0 ≠ x2) (h03 : x0 ≠ x3) (h12 : x1 ≠ x2) (h13 : x1 ≠ x3) (h23 : x2 ≠ x3) :
    ∃ d, endSlope x0 x1 x2 x3 y0 y1 y2 y3 = .ret d ∧ ∀ p : ℝ[X], p.natDegree ≤ 3 → p.eval x0 = y0 → p.eval x1 = y1 → p.eval x2 = y2 →
      p.eval x3 = y3 → p.derivative.eval x0 = d := by
  have s1 : x0 - x1 ≠ 0 := sub_ne_zero.mpr h01
  have s2 : x0 - x2 ≠ 0 := sub_ne_zero.mpr h02
  have s3 : x0 - x3 ≠ 0 := sub_ne_zero.mpr h03
  have s12 : x0 - x1 - (x0 - x2) ≠ 0 := by rw [show x0 - x1 - (x0 - x2) = -(x1 - x2) by ring]; exact neg_ne_zero.mpr (sub_ne_zero.mpr h12)
  have s13 : x0 - x1 - (x0 - x3) ≠ 0 := by rw [show x0 - x1 - (x0 - x3) = -(x1 - x3) by ring]; exact neg_ne_zero.mpr (sub_ne_zero.mpr h13)
  have s23 : x0 - x2 - (x0 - x3) ≠ 0 := by rw [show x0 - x2 - (x0 - x3) = -(x2 - x3) by ring]; exact neg_ne_zero.mpr (sub_ne_zero.mpr h23)
  refine ⟨_, by
    rw [endSlope]
    rw [fdiv, if_neg (mul_ne_zero (mul_ne_zero s13 s23) s3), Outcome.bind_ret, fdiv, if_neg (mul_ne_zero (mul_ne_zero s12 s2) s23), Outcome.bind_ret,
      fdiv, if_neg (mul_ne_zero (mul_ne_zero s1 s12) s13), Outcome.bind_ret, fdiv, if_neg s1, Outcome.bind_ret, fdiv, if_neg s2, Outcome.bind_ret,
      fdiv, if_neg s3, Outcome.bind_ret], ?_⟩
  rintro p hp rfl rfl rfl rfl
  have hsum : p = C (p.coeff 0) + C (p.coeff 1) * X + C (p.coeff 2) * X ^ 2 + C (p.coeff 3) * X ^ 3 := by
    conv_lhs => rw [p.as_sum_range_C_mul_X_pow' (show p.natDegree < 4 by omega)]
    simp [sum_range_succ]
  generalize p.coeff 0 = a at hsum
  generalize p.coeff 1 = b at hsum
  generalize p.coeff 2 = c at hsum
  generalize p.coeff 3 = d at hsum
  have hd : p.derivative.eval x0 = b + 2 * c * x0 + 3 * d * x0 ^ 2 := by
    rw [hsum]
    simp
    ring
  have he : ∀ z, p.eval z = a + b * z + c * z ^ 2 + d * z ^ 3 := by
    intro z
    rw [hsum]
    simp
  rw [hd, he, he, he, he]
  obtain ⟨u, rfl⟩ : ∃ u, x1 = x0 - u := ⟨x0 - x1, by ring⟩
  obtain ⟨v, rfl⟩ : ∃ v, x2 = x0 - v := ⟨x0 - x2, by ring⟩
  obtain ⟨w, rfl⟩ : ∃ w, x3 = x0 - w := ⟨x0 - x3, by ring⟩
  simp only [sub_sub_cancel] at s1 s2 s3 s12 s13 s23 ⊢
  field_simp
  ring

/-- The slope handed to the spline at one end: natural with fewer than four points, otherwise the derivative of the cubic through four points. -/
def SlopeOf (n : ℕ) (u y : ℕ → ℝ) (k : ℕ → ℕ) (d : ℝ) : Prop :=
  (n < 4 → d = naturalEnd) ∧ (4 ≤ n → ∀ p : ℝ[X], p.natDegree ≤ 3 → (∀ i < 4, p.eval (u (k i)) = y (k i)) → p.derivative.eval (u (k 0)) = d)

theorem slopeAt_eq {n : ℕ} {u : ℕ → ℝ} (hu : Increasing n u) (y : ℕ → ℝ) (k : ℕ → ℕ) (hk : 4 ≤ n → ∀ i < 4, k i < n)
    (hinj : 4 ≤ n → ∀ i < 4, ∀ j < 4, i ≠ j → k i ≠ k j) : ∃ d, slopeAt (tab n u) (tab n y) k = .ret d ∧ SlopeOf n u y k d := by
  by_cases hn : n < 4
  · exact ⟨naturalEnd, by rw [slopeAt, length_tab, if_pos hn], fun _ => rfl, fun h => absurd hn (by omega)⟩
  · have h4 : 4 ≤ n := by omega
    have ne : ∀ i < 4, ∀ j < 4, i ≠ j → u (k i) ≠ u (k j) := by
      intro i hi j hj hij
      rcases Nat.lt_or_gt_of_ne (hinj h4 i hi j hj hij) with h | h
      · exact (hu _ _ h (hk h4 j hj)).ne
      · exact (hu _ _ h (hk h4 i hi)).ne'
    obtain ⟨d, hd, hp⟩ := endSlope_eq (y0 := y (k 0)) (y1 := y (k 1)) (y2 := y (k 2)) (y3 := y (k 3)) (ne 0 (by omega) 1 (by omega) (by omega))
      (ne 0 (by omega) 2 (by omega) (by omega)) (ne 0 (by omega) 3 (by omega) (by omega)) (ne 1 (by omega) 2 (by omega) (by omega))
      (ne 1 (by omega) 3 (by omega) (by omega)) (ne 2 (by omega) 3 (by omega) (by omega))
    refine ⟨d, ?_, fun h => absurd h hn, fun _ p h3 hv => hp p h3 (hv 0 (by omega)) (hv 1 (by omega)) (hv 2 (by omega)) (hv 3 (by omega))⟩
    rw [slopeAt, length_tab, if_neg hn, index_tab u (hk h4 0 (by omega)), Outcome.bind_ret, index_tab u (hk h4 1 (by omega)), Outcome.bind_ret,
      index_tab u (hk h4 2 (by omega)), Outcome.bind_ret, index_tab u (hk h4 3 (by omega)), Outcome.bind_ret,
      index_tab y (hk h4 0 (by omega)), Outcome.bind_ret, index_tab y (hk h4 1 (by omega)), Outcome.bind_ret,
      index_tab y (hk h4 2 (by omega)), Outcome.bind_ret, index_tab y (hk h4 3 (by omega)), Outcome.bind_ret, hd]

section

variable {np N : ℕ} {P : ℕ → ℕ → ℝ} {close : Bool}

theorem curveRow_lt (h : 1 ≤ np) (i : ℕ) : curveRow np close i < np := Nat.mod_lt _ (by omega)

theorem curveOfs_le : curveOfs np close ≤ np := by
  rw [curveOfs]
  split <;> omega

theorem curveRow_prev (h : 1 ≤ np) (i : ℕ) : (curveRow np close (i + 1) + np - 1) % np = curveRow np close i := by
  have h1 := curveOfs_le (np := np) (close := close)
  have e : i + 1 + np - curveOfs np close = (i + np - curveOfs np close) + 1 := by omega
  rw [curveRow, curveRow, e]
  generalize i + np - curveOfs np close = q
  have : ((q + 1) % np + np - 1) % np = (q + 1 + (np - 1)) % np := by
    rw [show (q + 1) % np + np - 1 = (q + 1) % np + (np - 1) by omega, Nat.mod_add_mod]
  rw [this, show q + 1 + (np - 1) = q + np by omega, Nat.add_mod_right]

/-- The length of the path that visits the points in the order of the constructor. -/
noncomputable def visitLen (np N : ℕ) (P : ℕ → ℕ → ℝ) (close : Bool) (i : ℕ) : ℝ := pathLen N (fun k => P (curveRow np close k)) i

theorem visitLen_succ (i : ℕ) : visitLen np N P close (i + 1) =
    visitLen np N P close i + pointDist N (P (curveRow np close (i + 1))) (P (curveRow np close i)) := by
  rw [visitLen, pathLen, sum_range_succ]
  rfl

theorem lengths_eq (hnp : 1 ≤ np) (hd : ∀ i, i + 1 < curveLen np close → 0 < pointDist N (P (curveRow np close (i + 1))) (P (curveRow np close i))) :
    (do
      let s0 ← Outcome.store (List.replicate (curveLen np close) 0) 0 0
      forRange (curveLen np close) s0 (lengthStep N (Mat.Dense.ofFn np N P) close)) = .ret (tab (curveLen np close) (visitLen np N P close)) := by
  have hlen : 1 ≤ curveLen np close := by rw [curveLen]; split <;> omega
  have h0 : Outcome.store (List.replicate (curveLen np close) (0 : ℝ)) 0 0 = .ret (tab (curveLen np close) fun _ => 0) := by
    rw [replicate_eq_tab, store_tab _ (by omega)]
    exact congrArg _ (tab_congr fun k _ => by split <;> rfl)
  have z0 : visitLen np N P close 0 = 0 := by simp [visitLen, pathLen]
  rw [h0, Outcome.bind_ret]
  have key : ∀ k ≤ curveLen np close, forRange k (tab (curveLen np close) fun _ => 0) (lengthStep N (Mat.Dense.ofFn np N P) close) =
      .ret (tab (curveLen np close) fun i => if i < k then visitLen np N P close i else 0) := by
    intro k
    induction k with
    | zero => intro _; rw [forRange]; exact congrArg _ (tab_congr fun i hi => by rw [if_neg (by omega)])
    | succ k ih =>
      intro hk
      rw [forRange, ih (by omega), Outcome.bind_ret, lengthStep]
      rcases Nat.eq_zero_or_pos k with rfl | hk0
      · rw [if_neg (lt_irrefl 0)]
        refine congrArg _ (tab_congr fun i _ => ?_)
        by_cases hi : i = 0
        · rw [if_neg (by omega), if_pos (by omega), hi, z0]
        · rw [if_neg (by omega), if_neg (by omega)]
      · obtain ⟨q, rfl⟩ : ∃ q, k = q + 1 := ⟨k - 1, by omega⟩
        have hp := hd q (by omega)
        rw [if_pos hk0, Nat.add_sub_cancel, index_tab _ (by omega), Outcome.bind_ret, if_pos (Nat.lt_succ_self q)]
        simp only [Mat.Dense.ofFn_rows]
        rw [curveRow_prev hnp, rowDist_eq N le_rfl P (curveRow_lt hnp _) (curveRow_lt hnp _), Outcome.bind_ret, store_tab _ (by omega),
          Outcome.bind_ret, if_neg (by linarith), ← visitLen_succ]
        refine congrArg _ (tab_congr fun i _ => ?_)
        by_cases hi : i = q + 1
        · rw [if_pos hi, if_pos (by omega), hi]
        · rw [if_neg hi]
          by_cases hi2 : i < q + 1
          · rw [if_pos hi2, if_pos (by omega)]
          · rw [if_neg hi2, if_neg (by omega)]
  rw [key _ le_rfl]
  exact congrArg _ (tab_congr fun i hi => by rw [if_pos hi])

/-- The parameters. -/
noncomputable def curveParam (np N : ℕ) (P : ℕ → ℕ → ℝ) (close : Bool) (i : ℕ) : ℝ :=
  (visitLen np N P close i - visitLen np N P close (curveOfs np close)) /
    (visitLen np N P close (if close then curveOfs np close + np else np - 1) - visitLen np N P close (curveOfs np close))

theorem visitLen_lt (hd : ∀ i, i + 1 < curveLen np close → 0 < pointDist N (P (curveRow np close (i + 1))) (P (curveRow np close i)))
    {i k : ℕ} (hik : i < k) (hk : k < curveLen np close) : visitLen np N P close i < visitLen np N P close k := by
  induction k, hik using Nat.le_induction with
  | base => have := hd i hk; rw [visitLen_succ]; linarith
  | succ k hk' ih =>
    have h1 := ih (by omega)
    have h2 := hd k hk
    rw [visitLen_succ]
    linarith

theorem norm_eq (n : ℕ) (v : ℕ → ℝ) (soff ss : ℝ) (hss : ss ≠ 0) :
    forRange n (tab n v) (lengthNormStep soff ss) = .ret (tab n fun i => (v i - soff) / ss) := by
  have key : ∀ k ≤ n, forRange k (tab n v) (lengthNormStep soff ss) = .ret (tab n fun i => if i < k then (v i - soff) / ss else v i) := by
    intro k
    induction k with
    | zero => intro _; rw [forRange]; exact congrArg _ (tab_congr fun i hi => by rw [if_neg (by omega)])
    | succ k ih =>
      intro hk
      rw [forRange, ih (by omega), Outcome.bind_ret, lengthNormStep, index_tab _ (by omega), Outcome.bind_ret, if_neg (lt_irrefl k), fdiv, if_neg hss,
        Outcome.bind_ret, store_tab _ (by omega)]
      refine congrArg _ (tab_congr fun i _ => ?_)
      by_cases hi : i = k
      · rw [if_pos hi, if_pos (by omega), hi]
      · rw [if_neg hi]
        by_cases hi2 : i < k
        · rw [if_pos hi2, if_pos (by omega)]
        · rw [if_neg hi2, if_neg (by omega)]
  rw [key n le_rfl]
  exact congrArg _ (tab_congr fun i hi => by rw [if_pos hi])

/-- The construction, for both kinds of curves. -/
theorem splineCurve_new (hnp : 2 ≤ np)
    (hd : ∀ i, i + 1 < curveLen np close → 0 < pointDist N (P (curveRow np close (i + 1))) (P (curveRow np close i))) (minT maxT : ℝ) :
    Increasing (curveLen np close) (curveParam np N P close) ∧
    ∃ f, ∃ S : ℕ → ℝ → ℝ, SplineCurve.new N minT maxT (Mat.Dense.ofFn np N P) close = .ret f ∧ f.minT = minT ∧ f.maxT = maxT ∧ f.closed = close ∧
      (∀ j < N, CubicSpline (curveLen np close) (curveParam np N P close) (fun i => P (curveRow np close i) j) (S j) ∧
        (∃ d, SlopeOf (curveLen np close) (curveParam np N P close) (fun i => P (curveRow np close i) j) (fun k => k) d ∧
          EndCondition d (deriv (S j) (curveParam np N P close 0)) (deriv (deriv (S j)) (curveParam np N P close 0))) ∧
        ∃ d, SlopeOf (curveLen np close) (curveParam np N P close) (fun i => P (curveRow np close i) j) (fun k => curveLen np close - 1 - k) d ∧
          EndCondition d (deriv (S j) (curveParam np N P close (curveLen np close - 1)))
            (deriv (deriv (S j)) (curveParam np N P close (curveLen np close - 1)))) ∧
      ∀ u, forRange f.coords.length (List.replicate f.coords.length 0) (f.coordEval u) = .ret (tab N fun j => S j u) := by
  have hlen : np ≤ curveLen np close := by rw [curveLen]; split <;> omega
  have hofs : curveOfs np close < curveLen np close := by
    rw [curveLen, curveOfs]
    split <;> omega
  have htop : (if close then curveOfs np close + np else np - 1) < curveLen np close := by
    rw [curveLen, curveOfs]
    split <;> omega
  have hot : curveOfs np close < if close then curveOfs np close + np else np - 1 := by
    rw [curveOfs]
    split <;> omega
  have hss : 0 < visitLen np N P close (if close then curveOfs np close + np else np - 1) - visitLen np N P close (curveOfs np close) :=
    sub_pos.mpr (visitLen_lt hd hot htop)
  have hinc : Increasing (curveLen np close) (curveParam np N P close) := by
    intro i k hik hk
    have := visitLen_lt hd hik hk
    exact (div_lt_div_iff_of_pos_right hss).mpr (by linarith)
  refine ⟨hinc, ?_⟩
  generalize hn : curveLen np close = n at *
  generalize hu : curveParam np N P close = u at *
  have hcoord : ∀ j, ∃ f S, j < N → (CubicSpline n u (fun i => P (curveRow np close i) j) S ∧
      (∃ d, SlopeOf n u (fun i => P (curveRow np close i) j) (fun k => k) d ∧ EndCondition d (deriv S (u 0)) (deriv (deriv S) (u 0))) ∧
      ∃ d, SlopeOf n u (fun i => P (curveRow np close i) j) (fun k => n - 1 - k) d ∧
        EndCondition d (deriv S (u (n - 1))) (deriv (deriv S) (u (n - 1)))) ∧ (∀ z, f.eval z = .ret (S z)) ∧
      ∀ fs, coordSpline (Mat.Dense.ofFn np N P) close (tab n u) fs j = .ret (fs ++ [f]) := by
    intro j
    by_cases hj : j < N
    · obtain ⟨d0, e0, hs0⟩ := slopeAt_eq hinc (fun i => P (curveRow np close i) j) (fun k => k) (fun h i hi => by omega) (fun h i hi k hk hik => hik)
      obtain ⟨d1, e1, hs1⟩ := slopeAt_eq hinc (fun i => P (curveRow np close i) j) (fun k => n - 1 - k) (fun h i hi => by omega)
        (fun h i hi k hk hik => by omega)
      obtain ⟨f, hf, S, hS, s0, s1, hz⟩ := spline_spec n (by omega) u (fun i => P (curveRow np close i) j) (Or.inl hinc) d0 d1
      refine ⟨f, S, fun _ => ⟨⟨hS, ⟨d0, hs0, s0⟩, d1, hs1, s1⟩, fun z => (hz z).1, fun fs => ?_⟩⟩
      rw [coordSpline, length_tab, fill_values n (fun i => P (curveRow np close i) j) _ (fun i hi r => by
        rw [coordStep, Mat.Dense.ofFn_rows, Mat.Dense.get_ofFn P (curveRow_lt (by omega) _) hj, Outcome.bind_ret]), Outcome.bind_ret, e0,
        Outcome.bind_ret, e1, Outcome.bind_ret, hf, Outcome.bind_ret]
    · obtain ⟨f, hf, _⟩ := spline_spec n (by omega) u (fun i => 0) (Or.inl hinc) 0 0
      exact ⟨f, fun _ => 0, fun h => absurd h hj⟩
  choose f S hfS using hcoord
  have hall : ∀ k ≤ N, forRange k [] (coordSpline (Mat.Dense.ofFn np N P) close (tab n u)) = .ret (tab k f) := by
    intro k
    induction k with
    | zero => intro _; rfl
    | succ k ih =>
      intro hk
      rw [forRange, ih (by omega), Outcome.bind_ret, (hfS k (by omega)).2.2]
      refine congrArg _ ?_
      rw [tab, tab, List.range_succ, List.map_append]
      rfl
  refine ⟨⟨minT, maxT, close, tab N f⟩, S, ?_, rfl, rfl, rfl, fun j hj => (hfS j hj).1, fun z => ?_⟩
  · have hl := lengths_eq (N := N) (P := P) (close := close) (np := np) (by omega) (by rw [hn]; exact hd)
    rw [SplineCurve.new, if_neg (by simp)]
    simp only [Mat.Dense.ofFn_rows, Mat.Dense.ofFn_cols]
    rw [hn] at hl ⊢
    have h0 : ∃ s0, Outcome.store (List.replicate n (0 : ℝ)) 0 0 = .ret s0 := by
      rw [replicate_eq_tab, store_tab _ (by omega)]
      exact ⟨_, rfl⟩
    obtain ⟨s0, h0⟩ := h0
    rw [h0, Outcome.bind_ret] at hl ⊢
    rw [hl, Outcome.bind_ret, index_tab _ hofs, Outcome.bind_ret, index_tab _ htop, Outcome.bind_ret, norm_eq n _ _ _ hss.ne', Outcome.bind_ret]
    have : (tab n fun i => (visitLen np N P close i - visitLen np N P close (curveOfs np close)) /
        (visitLen np N P close (if close then curveOfs np close + np else np - 1) - visitLen np N P close (curveOfs np close))) = tab n u := by
      rw [← hu]
      rfl
    rw [this, hall N le_rfl, Outcome.bind_ret]
  · dsimp only
    rw [length_tab]
    exact fill_values N _ _ fun j hj r => by
      rw [SplineCurve.coordEval, index_tab f hj, Outcome.bind_ret, (hfS j hj).2.1, Outcome.bind_ret]

end

theorem curveRow_open {np i : ℕ} (hi : i < np) : curveRow np false i = i := by
  rw [curveRow, curveOfs, if_neg (by simp), Nat.sub_zero, Nat.add_mod_right, Nat.mod_eq_of_lt hi]

theorem visitLen_open {np N : ℕ} {P : ℕ → ℕ → ℝ} {i : ℕ} (hi : i < np) : visitLen np N P false i = pathLen N P i := by
  rw [visitLen, pathLen, pathLen]
  refine sum_congr rfl fun k hk => ?_
  have := mem_range.mp hk
  rw [curveRow_open (by omega), curveRow_open (by omega)]

/-- C87, splines: an open curve through at least two points of which neighbours differ, on a parameter range with different ends.  Every
parameter gives a point; each coordinate is a cubic spline (so twice continuously differentiable) of the parameter mapped to `[0, 1]`, takes
the coordinate of point `i` at the length of the path up to it divided by the whole, and has at its ends no curvature (fewer than four
points) or the slope of the cubic through the four points there. -/
theorem splineCurve_open (np N : ℕ) (hnp : 2 ≤ np) (P : ℕ → ℕ → ℝ) (hd : ∀ i, i + 1 < np → 0 < pointDist N (P (i + 1)) (P i)) (minT maxT : ℝ)
    (hT : minT ≠ maxT) :
    ∃ f, ∃ S : ℕ → ℝ → ℝ, SplineCurve.new N minT maxT (Mat.Dense.ofFn np N P) false = .ret f ∧
      (∀ t, f.eval t = .ret (tab N fun j => S j ((t - minT) / (maxT - minT)))) ∧
      ∀ j < N, CubicSpline np (fun i => pathLen N P i / pathLen N P (np - 1)) (fun i => P i j) (S j) ∧
        (∃ d, SlopeOf np (fun i => pathLen N P i / pathLen N P (np - 1)) (fun i => P i j) (fun k => k) d ∧
          EndCondition d (deriv (S j) 0) (deriv (deriv (S j)) 0)) ∧
        ∃ d, SlopeOf np (fun i => pathLen N P i / pathLen N P (np - 1)) (fun i => P i j) (fun k => np - 1 - k) d ∧
          EndCondition d (deriv (S j) 1) (deriv (deriv (S j)) 1) := by
  have hlen : curveLen np false = np := rfl
  have hd' : ∀ i, i + 1 < curveLen np false → 0 < pointDist N (P (curveRow np false (i + 1))) (P (curveRow np false i)) := by
    intro i hi
    rw [hlen] at hi
    rw [curveRow_open hi, curveRow_open (by omega)]
    exact hd i hi
  obtain ⟨_, f, S, hf, h1, h2, h3, hS, hev⟩ := splineCurve_new hnp hd' minT maxT
  rw [hlen] at hS
  have z0 : pathLen N P 0 = 0 := by simp [pathLen]
  have hpar : ∀ i < np, curveParam np N P false i = pathLen N P i / pathLen N P (np - 1) := by
    intro i hi
    have o : curveOfs np false = 0 := rfl
    rw [curveParam, o]
    simp only [Bool.false_eq_true, if_false]
    rw [visitLen_open hi, visitLen_open (by omega), visitLen_open (by omega), z0, sub_zero, sub_zero]
  have hL : pathLen N P (np - 1) ≠ 0 := by
    have := pathLen_mono (N := N) (P := P) (show 1 ≤ np - 1 by omega)
    have h1 := hd 0 (by omega)
    have e : pathLen N P 1 = pointDist N (P (0 + 1)) (P 0) := by rw [pathLen, sum_range_one]
    linarith
  have slope : ∀ j k d, (∀ i < 4, 4 ≤ np → k i < np) → SlopeOf np (curveParam np N P false) (fun i => P (curveRow np false i) j) k d →
      SlopeOf np (fun i => pathLen N P i / pathLen N P (np - 1)) (fun i => P i j) k d := by
    intro j k d hk h
    refine ⟨h.1, fun h4 p hp hv => ?_⟩
    have := h.2 h4 p hp fun i hi => by rw [hpar _ (hk i hi h4)]; dsimp only; rw [curveRow_open (hk i hi h4)]; exact hv i hi
    rw [hpar _ (hk 0 (by omega) h4)] at this
    exact this
  refine ⟨f, S, hf, fun t => ?_, fun j hj => ?_⟩
  · rw [SplineCurve.eval, h3, if_neg (by simp), h1, h2, fdiv, if_neg (sub_ne_zero.mpr hT.symm), Outcome.bind_ret, hev]
    rfl
  · obtain ⟨c1, ⟨d, c2, c3⟩, d', c4, c5⟩ := hS j hj
    have p0 : curveParam np N P false 0 = 0 := by rw [hpar 0 (by omega), z0, zero_div]
    have p1 : curveParam np N P false (np - 1) = 1 := by rw [hpar _ (by omega), div_self hL]
    rw [p0] at c3
    rw [p1] at c5
    refine ⟨⟨c1.smooth, fun i hi => ?_, fun i hi => ?_⟩, ⟨d, slope j _ d (fun i hi h4 => by omega) c2, c3⟩,
      d', slope j _ d' (fun i hi h4 => by omega) c4, c5⟩
    · have := c1.values i hi
      rw [hpar i hi, curveRow_open hi] at this
      exact this
    · have := c1.cubic i hi
      rw [hpar i (by omega), hpar (i + 1) hi] at this
      exact this

/-- The path around the points of a closed curve: point `i` is followed by point `(i + 1) % np`. -/
noncomputable def loopLen (np N : ℕ) (P : ℕ → ℕ → ℝ) (i : ℕ) : ℝ := pathLen N (fun k => P (k % np)) i

theorem curveRow_closed {np : ℕ} (i : ℕ) : curveRow np true (np / 2 + i) = i % np := by
  rw [curveRow, curveOfs, if_pos rfl, show np / 2 + i + np - np / 2 = i + np by omega, Nat.add_mod_right]

theorem visitLen_closed {np N : ℕ} {P : ℕ → ℕ → ℝ} (i : ℕ) :
    visitLen np N P true (np / 2 + i) - visitLen np N P true (np / 2) = loopLen np N P i := by
  induction i with
  | zero => simp [loopLen, pathLen]
  | succ i ih =>
    rw [← add_assoc, visitLen_succ, add_assoc, curveRow_closed, curveRow_closed, loopLen, pathLen, sum_range_succ]
    rw [loopLen, pathLen] at ih
    linarith

/-- C87, splines: a closed curve through at least two points, neighbours different also from the last to the first, on the default parameter
range `[0, 1]`.  Every parameter of the range gives a point and every other is refused; each coordinate is a twice continuously
differentiable function on `[0, 1)` that takes the coordinate of point `i` at the length of the loop up to it divided by the length of the
whole loop; at 1 the curve is back at point 0, and its limit there is point 0. -/
theorem splineCurve_closed (np N : ℕ) (hnp : 2 ≤ np) (P : ℕ → ℕ → ℝ) (hd : ∀ i < np, 0 < pointDist N (P ((i + 1) % np)) (P i)) :
    ∃ f, ∃ S : ℕ → ℝ → ℝ, SplineCurve.new N 0 1 (Mat.Dense.ofFn np N P) true = .ret f ∧ (∀ j < N, ContDiff ℝ 2 (S j)) ∧
      (∀ t, 0 ≤ t → t < 1 → f.eval t = .ret (tab N fun j => S j t)) ∧ f.eval 1 = f.eval 0 ∧
      (∀ i ≤ np, ∀ j < N, S j (loopLen np N P i / loopLen np N P np) = P (i % np) j) ∧
      (∀ j < N, S j 0 = P 0 j ∧ S j 1 = P 0 j) ∧ ∀ t, t < 0 ∨ 1 < t → f.eval t = .exn (.mml "DomainError") := by
  have hlen : curveLen np true = 2 * np := rfl
  have hd' : ∀ i, i + 1 < curveLen np true → 0 < pointDist N (P (curveRow np true (i + 1))) (P (curveRow np true i)) := by
    intro i _
    have h := hd (curveRow np true i) (curveRow_lt (by omega) i)
    have e : (curveRow np true i + 1) % np = curveRow np true (i + 1) := by
      have := curveOfs_le (np := np) (close := true)
      rw [curveRow, curveRow, show i + 1 + np - curveOfs np true = i + np - curveOfs np true + 1 by omega, Nat.mod_add_mod]
    rwa [e] at h
  obtain ⟨_, f, S, hf, h1, h2, h3, hS, hev⟩ := splineCurve_new hnp hd' 0 1
  rw [hlen] at hS
  have hofs : curveOfs np true = np / 2 := rfl
  have hpar : ∀ i, curveParam np N P true (np / 2 + i) = loopLen np N P i / loopLen np N P np := by
    intro i
    rw [curveParam, hofs, if_pos rfl, visitLen_closed, visitLen_closed]
  have hval : ∀ i ≤ np, ∀ j < N, S j (loopLen np N P i / loopLen np N P np) = P (i % np) j := by
    intro i hi j hj
    have := (hS j hj).1.values (np / 2 + i) (by omega)
    rw [hpar, curveRow_closed] at this
    exact this
  have z0 : loopLen np N P 0 = 0 := by simp [loopLen, pathLen]
  have hL : loopLen np N P np ≠ 0 := by
    have := pathLen_mono (N := N) (P := fun k => P (k % np)) (show 1 ≤ np by omega)
    have h1 := hd 0 (by omega)
    have e : pathLen N (fun k => P (k % np)) 1 = pointDist N (P ((0 + 1) % np)) (P (0 % np)) := by rw [pathLen, sum_range_one]
    rw [Nat.zero_mod] at e
    rw [loopLen]
    linarith
  have heval : ∀ t, 0 ≤ t → t ≤ 1 → f.eval t = .ret (tab N fun j => S j (t - ⌊t⌋)) := by
    intro t h0 h1'
    rw [SplineCurve.eval, h3, h1, h2, if_neg (by rintro ⟨_, h | h⟩ <;> linarith), fdiv, if_neg (by norm_num), Outcome.bind_ret, hev, if_pos rfl]
    refine congrArg Outcome.ret (tab_congr fun j _ => ?_)
    rw [sub_zero, sub_zero, div_one]
  refine ⟨f, S, hf, fun j hj => (hS j hj).1.smooth, fun t h0 h1' => ?_, ?_, hval, fun j hj => ⟨?_, ?_⟩, fun t ht => ?_⟩
  · rw [heval t h0 h1'.le, Int.floor_eq_zero_iff.mpr ⟨h0, h1'⟩]
    simp
  · rw [heval 1 zero_le_one le_rfl, heval 0 le_rfl zero_le_one]
    simp
  · have := hval 0 (by omega) j hj
    rwa [z0, zero_div, Nat.zero_mod] at this
  · have := hval np le_rfl j hj
    rwa [div_self hL, Nat.mod_self] at this
  · rw [SplineCurve.eval, h3, h1, h2, if_pos ⟨rfl, ht⟩]

/-- C87, against the documentation: a closed curve on another parameter range wraps the parameter before it is mapped to `[0, 1]`.  On
`[0, 2]` the second half of the range repeats the first: the curve never goes round. -/
theorem splineCurve_range (f : SplineCurve) (hc : f.closed = true) (h0 : f.minT = 0) (h2 : f.maxT = 2) (t : ℝ) (ht : 0 ≤ t) (ht1 : t ≤ 1) :
    f.eval (t + 1) = f.eval t := by
  rw [SplineCurve.eval, SplineCurve.eval, hc, h0, h2, if_neg (show ¬(true = true ∧ (t + 1 < 0 ∨ t + 1 > 2)) by rintro ⟨_, h | h⟩ <;> linarith),
    if_neg (show ¬(true = true ∧ (t < 0 ∨ t > 2)) by rintro ⟨_, h | h⟩ <;> linarith), if_pos rfl, if_pos rfl, Int.floor_add_one]
  congr 1
  push_cast
  ring_nf

/-- C87, against the documentation: on `[2, 3]` the parameter handed to the splines is never in `[0, 1]`: each evaluation is an
extrapolation at a value in `[-2, -1)`. -/
theorem splineCurve_range_outside (f : SplineCurve) (hc : f.closed = true) (h0 : f.minT = 2) (h2 : f.maxT = 3) (t : ℝ) (ht : 2 ≤ t) (ht1 : t ≤ 3) :
    ∃ u, -2 ≤ u ∧ u < -1 ∧ f.eval t = forRange f.coords.length (List.replicate f.coords.length 0) (f.coordEval u) := by
  refine ⟨Int.fract t - 2, by linarith [Int.fract_nonneg t], by linarith [Int.fract_lt_one t], ?_⟩
  rw [SplineCurve.eval, hc, h0, h2, if_neg (by rintro ⟨_, h | h⟩ <;> linarith), if_pos rfl, fdiv, if_neg (by norm_num), Outcome.bind_ret]
  congr 2
  rw [show (3 : ℝ) - 2 = 1 by norm_num, div_one]
  rfl

/-- C87: neighbouring points that coincide are refused. -/
theorem splineCurve_repeated (np N : ℕ) (P : ℕ → ℕ → ℝ) (minT maxT : ℝ) (k : ℕ) (hk : k + 1 < np)
    (hd : ∀ i < k, 0 < pointDist N (P (i + 1)) (P i)) (h0 : pointDist N (P (k + 1)) (P k) = 0) :
    SplineCurve.new N minT maxT (Mat.Dense.ofFn np N P) false = .exn (.mml "RealFuncInterpRuntimeError") := by
  have hst : ∃ s0, Outcome.store (List.replicate np (0 : ℝ)) 0 0 = .ret s0 ∧ s0.length = np := by
    rw [replicate_eq_tab, store_tab _ (by omega)]
    exact ⟨_, rfl, length_tab _ _⟩
  obtain ⟨s0, hs0, hl0⟩ := hst
  have hrow : ∀ i < np, rowDist N (Mat.Dense.ofFn np N P) (curveRow np false (i + 1)) ((curveRow np false (i + 1) + np - 1) % np) =
      .ret (pointDist N (P (curveRow np false (i + 1))) (P (curveRow np false i))) := by
    intro i hi
    rw [curveRow_prev (by omega), rowDist_eq N le_rfl P (curveRow_lt (by omega) _) (curveRow_lt (by omega) _)]
  have store_ok : ∀ (s : List ℝ) (i : ℕ) (a : ℝ), i < s.length → ∃ s', Outcome.store s i a = .ret s' ∧ s'.length = s.length := by
    intro s i a hi
    rw [eq_tab s 0, store_tab _ hi]
    exact ⟨_, rfl, by rw [length_tab, length_tab]⟩
  have hpre : ∀ i ≤ k + 1, ∃ s, forRange i s0 (lengthStep N (Mat.Dense.ofFn np N P) false) = .ret s ∧ s.length = np := by
    intro i
    induction i with
    | zero => intro _; exact ⟨s0, rfl, hl0⟩
    | succ i ih =>
      intro hi
      obtain ⟨s, hs, hl⟩ := ih (by omega)
      rw [forRange, hs, Outcome.bind_ret, lengthStep]
      rcases Nat.eq_zero_or_pos i with rfl | hi0
      · rw [if_neg (lt_irrefl 0)]
        exact ⟨s, rfl, hl⟩
      · obtain ⟨q, rfl⟩ : ∃ q, i = q + 1 := ⟨i - 1, by omega⟩
        have hp := hd q (by omega)
        obtain ⟨a, ha⟩ : ∃ a, Outcome.index s q = .ret a := by
          rw [eq_tab s 0, index_tab _ (by omega)]
          exact ⟨_, rfl⟩
        rw [if_pos hi0, Nat.add_sub_cancel, ha, Outcome.bind_ret]
        simp only [Mat.Dense.ofFn_rows]
        rw [hrow q (by omega), Outcome.bind_ret, curveRow_open (by omega), curveRow_open (by omega)]
        obtain ⟨s', hs', hl'⟩ := store_ok s (q + 1) (a + pointDist N (P (q + 1)) (P q)) (by omega)
        rw [hs', Outcome.bind_ret, if_neg (by linarith)]
        exact ⟨s', rfl, by omega⟩
  have hexn : ∀ i, k + 2 ≤ i → forRange i s0 (lengthStep N (Mat.Dense.ofFn np N P) false) = .exn (.mml "RealFuncInterpRuntimeError") := by
    intro i hi
    induction i, hi using Nat.le_induction with
    | base =>
      obtain ⟨s, hs, hl⟩ := hpre (k + 1) le_rfl
      rw [forRange, hs, Outcome.bind_ret, lengthStep, if_pos (Nat.succ_pos k), Nat.add_sub_cancel]
      obtain ⟨a, ha⟩ : ∃ a, Outcome.index s k = .ret a := by
        rw [eq_tab s 0, index_tab _ (by omega)]
        exact ⟨_, rfl⟩
      rw [ha, Outcome.bind_ret]
      simp only [Mat.Dense.ofFn_rows]
      rw [hrow k (by omega), Outcome.bind_ret, curveRow_open (by omega), curveRow_open (by omega), h0]
      obtain ⟨s', hs', hl'⟩ := store_ok s (k + 1) (a + 0) (by omega)
      rw [hs', Outcome.bind_ret, if_pos (add_zero a)]
    | succ i hi ih =>
      rw [forRange, ih]
      rfl
  rw [SplineCurve.new, if_neg (by simp)]
  simp only [Mat.Dense.ofFn_rows]
  rw [show curveLen np false = np from rfl, hs0, Outcome.bind_ret, hexn np (by omega)]
  rfl

/-- C87: the template argument must be the number of columns. -/
theorem splineCurve_shape (N : ℕ) (minT maxT : ℝ) (pts : Mat.Dense ℝ) (close : Bool) (h : N ≠ pts.cols) :
    SplineCurve.new N minT maxT pts close = .exn (.mml "MatrixDimensionError") := by
  rw [SplineCurve.new, if_pos h]

/-- Non-vacuity: five points on a line, and three points of a loop. -/
example : (∃ f, ∃ S : ℕ → ℝ → ℝ, SplineCurve.new 1 0 1 (Mat.Dense.ofFn 5 1 fun i _ => (i : ℝ)) false = .ret f ∧
      (∀ t, f.eval t = .ret (tab 1 fun j => S j ((t - 0) / (1 - 0)))) ∧ S 0 (1 / 2) = 2) ∧
    ∃ f, ∃ S : ℕ → ℝ → ℝ, SplineCurve.new 1 0 1 (Mat.Dense.ofFn 3 1 fun i _ => (i : ℝ)) true = .ret f ∧
      (∀ t, 0 ≤ t → t < 1 → f.eval t = .ret (tab 1 fun j => S j t)) ∧ S 0 (1 / 2) = 2 := by
  have d : ∀ a b : ℕ → ℝ, pointDist 1 a b = |a 0 - b 0| := by
    intro a b
    rw [pointDist, sum_range_one, Real.sqrt_sq_eq_abs]
  constructor
  · have hlen : ∀ i, pathLen 1 (fun i _ => (i : ℝ)) i = i := by
      intro i
      rw [pathLen, sum_congr rfl fun k _ => (by rw [d]; simp : pointDist 1 (fun _ => ((k + 1 : ℕ) : ℝ)) (fun _ => (k : ℝ)) = 1)]
      simp
    obtain ⟨f, S, hf, h1, h2⟩ := splineCurve_open 5 1 (by norm_num) (fun i _ => (i : ℝ)) (fun i _ => by rw [d]; simp) 0 1 (by norm_num)
    refine ⟨f, S, hf, h1, ?_⟩
    have := (h2 0 (by norm_num)).1.values 2 (by norm_num)
    simp only [hlen] at this
    norm_num at this
    exact this
  · obtain ⟨f, S, hf, _, h1, _, h2, _⟩ := splineCurve_closed 3 1 (by norm_num) (fun i _ => (i : ℝ)) (fun i hi => by
      rw [d]
      interval_cases i <;> norm_num)
    refine ⟨f, S, hf, h1, ?_⟩
    have := h2 2 (by norm_num) 0 (by norm_num)
    have e2 : loopLen 3 1 (fun i _ => (i : ℝ)) 2 = 2 := by
      rw [loopLen, pathLen, sum_range_succ, sum_range_one, d, d]
      norm_num
    have e3 : loopLen 3 1 (fun i _ => (i : ℝ)) 3 = 4 := by
      rw [loopLen, pathLen, sum_range_succ, sum_range_succ, sum_range_one, d, d, d]
      norm_num
    rw [e2, e3] at this
    norm_num at this
    exact this

end Verif.Interp
