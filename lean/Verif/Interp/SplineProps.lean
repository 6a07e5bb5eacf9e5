import Verif.Interp.SplinePieces
import Verif.Interp.Energy

/-!
# Cubic spline interpolation (C83)
-/

set_option autoImplicit false

namespace Verif.Interp

open Verif Polynomial Set MeasureTheory

theorem exists_ordered {n : ℕ} {x : ℕ → ℝ} (hx : Increasing n x ∨ Decreasing n x) : ∃ σ, Ordered σ n x := by
  rcases hx with hx | hx
  · exact ⟨1, hx.ordered⟩
  · exact ⟨-1, hx.ordered⟩

/-- C83: for every ordered table and every pair of slopes the constructor succeeds, and the function is a cubic spline through the
points which meets the conditions at both ends; `Derivative` and `SecondDerivative` are its derivatives, at every point. -/
theorem spline_spec (n : ℕ) (hn : 2 ≤ n) (x y : ℕ → ℝ) (hx : Increasing n x ∨ Decreasing n x) (yp1 ypn : ℝ) :
    ∃ f, Spline.new (tab n x) (tab n y) yp1 ypn = .ret f ∧ ∃ S : ℝ → ℝ, CubicSpline n x y S ∧
      EndCondition yp1 (deriv S (x 0)) (deriv (deriv S) (x 0)) ∧
      EndCondition ypn (deriv S (x (n - 1))) (deriv (deriv S) (x (n - 1))) ∧
      ∀ z, f.eval z = .ret (S z) ∧ f.derivative z = .ret (deriv S z) ∧ f.secondDerivative z = .ret (deriv (deriv S) z) := by
  obtain ⟨l, rfl⟩ : ∃ l, n = l + 2 := ⟨n - 2, by omega⟩
  obtain ⟨σ, hσ⟩ := exists_ordered hx
  obtain ⟨M, hM, hsec⟩ := spline_new hσ y yp1 ypn
  refine ⟨_, hM, S0 l x y M, hsec.spline, ?_, ?_, fun z => ⟨hsec.eval z, ?_, ?_⟩⟩
  · rw [hsec.deriv0, hsec.deriv1]
    exact hsec.left
  · rw [hsec.deriv0, hsec.deriv1]
    exact hsec.right
  · rw [hsec.deriv0]
    exact hsec.derivative z
  · rw [hsec.deriv0, hsec.deriv1]
    exact hsec.secondDerivative z

/-- C83: `GetSecondDerivative` reports the second derivatives at the points and refuses other indices. -/
theorem spline_getSecond (n : ℕ) (x y : ℕ → ℝ) (hx : Increasing n x ∨ Decreasing n x) (yp1 ypn : ℝ) (f : Spline)
    (hf : Spline.new (tab n x) (tab n y) yp1 ypn = .ret f) (i : ℤ) :
    f.getSecond i = if 0 ≤ i ∧ i < n then f.secondDerivative (x i.toNat) else .exn (.mml "IndexError") := by
  have hn : 2 ≤ n := by
    by_contra h
    rw [Spline.new, table_new_spec, if_neg (fun h' => h (by simpa using h'.1))] at hf
    cases hf
  obtain ⟨l, rfl⟩ : ∃ l, n = l + 2 := ⟨n - 2, by omega⟩
  obtain ⟨σ, hσ⟩ := exists_ordered hx
  obtain ⟨M, hM, hsec⟩ := spline_new hσ y yp1 ypn
  rw [hM] at hf
  cases hf
  rw [Spline.getSecond]
  simp only [length_tab]
  by_cases h : 0 ≤ i ∧ i < ((l + 2 : ℕ) : ℤ)
  · rw [if_neg (by omega), if_pos h]
    have := hsec.secondDerivative (x i.toNat)
    rw [obj] at this
    rw [this, index_tab M (by omega), hsec.second (by omega)]
  · rw [if_pos (by omega), if_neg h]

/-- C83: any cubic spline through the points that meets the same conditions at the ends is the function computed. -/
theorem spline_unique (n : ℕ) (x y : ℕ → ℝ) (hx : Increasing n x) (yp1 ypn : ℝ) (f : Spline)
    (hf : Spline.new (tab n x) (tab n y) yp1 ypn = .ret f) (T : ℝ → ℝ) (hT : CubicSpline n x y T)
    (t1 : EndCondition yp1 (deriv T (x 0)) (deriv (deriv T) (x 0)))
    (tn : EndCondition ypn (deriv T (x (n - 1))) (deriv (deriv T) (x (n - 1)))) (z : ℝ) (hz : z ∈ Icc (x 0) (x (n - 1))) :
    f.eval z = .ret (T z) := by
  have hn : 2 ≤ n := by
    by_contra h
    rw [Spline.new, table_new_spec, if_neg (fun h' => h (by simpa using h'.1))] at hf
    cases hf
  obtain ⟨f', hf', S, hS, s1, sn, hz'⟩ := spline_spec n hn x y (Or.inl hx) yp1 ypn
  obtain ⟨l, rfl⟩ : ∃ l, n = l + 2 := ⟨n - 2, by omega⟩
  rw [hf] at hf'
  cases hf'
  rw [(hz' z).1, hS.unique hx hT s1 t1 sn tn z hz]

/-- C83: values and end slopes of a polynomial of degree at most three are reproduced; with natural ends this holds when its second
derivative vanishes there. -/
theorem spline_exact (n : ℕ) (x : ℕ → ℝ) (p : ℝ[X]) (hp : p.natDegree ≤ 3) (hx : Increasing n x) (yp1 ypn : ℝ) (f : Spline)
    (hf : Spline.new (tab n x) (tab n fun i => p.eval (x i)) yp1 ypn = .ret f)
    (t1 : EndCondition yp1 (p.derivative.eval (x 0)) (p.derivative.derivative.eval (x 0)))
    (tn : EndCondition ypn (p.derivative.eval (x (n - 1))) (p.derivative.derivative.eval (x (n - 1)))) (z : ℝ)
    (hz : z ∈ Icc (x 0) (x (n - 1))) : f.eval z = .ret (p.eval z) := by
  have d1 : (deriv fun z => p.eval z) = fun z => p.derivative.eval z := funext fun z => p.deriv
  have d2 : (deriv fun z => p.derivative.eval z) = fun z => p.derivative.derivative.eval z := funext fun z => p.derivative.deriv
  refine spline_unique n x _ hx yp1 ypn f hf (fun z => p.eval z) ⟨?_, fun _ _ => rfl, fun _ _ => ⟨p, hp, fun _ _ => rfl⟩⟩ ?_ ?_ z hz
  · exact contDiff_two_of (fun z => p.hasDerivAt z) (fun z => p.derivative.hasDerivAt z) p.derivative.derivative.continuous
  · rw [d1, d2]
    exact t1
  · rw [d1, d2]
    exact tn

/-- Non-vacuity: the cubes at 0, 1, 3 with the slopes 0 and 27. -/
example : ∃ f, Spline.new (tab 3 fun i => if i = 2 then 3 else (i : ℝ)) (tab 3 fun i => (X ^ 3 : ℝ[X]).eval (if i = 2 then 3 else (i : ℝ))) 0 27 =
    .ret f ∧ f.eval 2 = .ret 8 := by
  have hinc : Increasing 3 fun i => if i = 2 then 3 else (i : ℝ) := by
    intro i j hij hj
    interval_cases j
    · omega
    · obtain rfl : i = 0 := by omega
      norm_num
    · interval_cases i <;> norm_num
  obtain ⟨f, hf, -⟩ := spline_spec 3 (by norm_num) (fun i => if i = 2 then 3 else (i : ℝ))
    (fun i => (X ^ 3 : ℝ[X]).eval (if i = 2 then 3 else (i : ℝ))) (Or.inl hinc) 0 27
  have hn : ¬ (0 : ℝ) > 99 / 100 * 10 ^ 99 := by norm_num
  have hn' : ¬ (27 : ℝ) > 99 / 100 * 10 ^ 99 := by norm_num
  refine ⟨f, hf, ?_⟩
  rw [spline_exact 3 _ (X ^ 3) (by rw [natDegree_X_pow]) hinc 0 27 f hf
    (by rw [EndCondition, if_neg hn]; simp) (by rw [EndCondition, if_neg hn']; norm_num) 2 (by norm_num)]
  norm_num

/-- C83: among all twice continuously differentiable functions through the points, with the slopes prescribed, the spline has the
least curvature, measured by the integral of the square of the second derivative. -/
theorem spline_least (n : ℕ) (x y : ℕ → ℝ) (hx : Increasing n x) (yp1 ypn : ℝ) (f : Spline)
    (hf : Spline.new (tab n x) (tab n y) yp1 ypn = .ret f) (S2 : ℝ → ℝ) (hS2 : ∀ z, f.secondDerivative z = .ret (S2 z))
    (g : ℝ → ℝ) (hg : ContDiff ℝ 2 g) (hgy : ∀ i < n, g (x i) = y i)
    (g1 : yp1 ≤ 99 / 100 * 10 ^ 99 → deriv g (x 0) = yp1) (gn : ypn ≤ 99 / 100 * 10 ^ 99 → deriv g (x (n - 1)) = ypn) :
    ∫ z in x 0..x (n - 1), S2 z ^ 2 ≤ ∫ z in x 0..x (n - 1), (deriv (deriv g) z) ^ 2 := by
  have hn : 2 ≤ n := by
    by_contra h
    rw [Spline.new, table_new_spec, if_neg (fun h' => h (by simpa using h'.1))] at hf
    cases hf
  obtain ⟨f', hf', S, hS, s1, sn, hz'⟩ := spline_spec n hn x y (Or.inl hx) yp1 ypn
  obtain ⟨l, rfl⟩ : ∃ l, n = l + 2 := ⟨n - 2, by omega⟩
  rw [hf] at hf'
  cases hf'
  have e : S2 = deriv (deriv S) := by
    funext z
    have := (hz' z).2.2
    rw [hS2] at this
    exact Outcome.ret.inj this
  rw [e]
  exact hS.least hx hg hgy s1 sn g1 gn

/-- C83: outside the table the first and the last polynomial are continued. -/
theorem spline_extrapolates (n : ℕ) (x y : ℕ → ℝ) (hx : Increasing n x) (yp1 ypn : ℝ) (f : Spline)
    (hf : Spline.new (tab n x) (tab n y) yp1 ypn = .ret f) :
    ∃ p q : ℝ[X], p.natDegree ≤ 3 ∧ q.natDegree ≤ 3 ∧ (∀ z ≤ x 1, f.eval z = .ret (p.eval z)) ∧
      ∀ z ≥ x (n - 2), f.eval z = .ret (q.eval z) := by
  have hn : 2 ≤ n := by
    by_contra h
    rw [Spline.new, table_new_spec, if_neg (fun h' => h (by simpa using h'.1))] at hf
    cases hf
  obtain ⟨l, rfl⟩ : ∃ l, n = l + 2 := ⟨n - 2, by omega⟩
  obtain ⟨M, hM, hsec⟩ := spline_new hx.ordered y yp1 ypn
  rw [hM] at hf
  cases hf
  refine ⟨pp x y M 0, pp x y M l, piecePoly_degree _ _ _ _ _ _, piecePoly_degree _ _ _ _ _ _, fun z hz => ?_, fun z hz => ?_⟩
  · rw [← hsec.pieces0.eq z 0 ⟨by omega, Or.inl rfl, Or.inr (by simpa using hz)⟩]
    exact hsec.eval z
  · rw [← hsec.pieces0.eq z l ⟨by omega, Or.inr (by simpa using hz), Or.inl rfl⟩]
    exact hsec.eval z

/-! ## The integral -/

/-- An antiderivative of the polynomial of an interval. -/
noncomputable def primPoly (x0 x1 y0 y1 s0 s1 : ℝ) : ℝ[X] :=
  C (x1 - x0) * (C (y1 / 2) * (C (1 / (x1 - x0)) * (X - C x0)) ^ 2 - C (y0 / 2) * (C (1 / (x1 - x0)) * (C x1 - X)) ^ 2 +
    C ((x1 - x0) ^ 2 / 6) * (C s1 * (C (1 / 4) * (C (1 / (x1 - x0)) * (X - C x0)) ^ 4 - C (1 / 2) * (C (1 / (x1 - x0)) * (X - C x0)) ^ 2) -
      C s0 * (C (1 / 4) * (C (1 / (x1 - x0)) * (C x1 - X)) ^ 4 - C (1 / 2) * (C (1 / (x1 - x0)) * (C x1 - X)) ^ 2)))

theorem segment_eq {x0 x1 : ℝ} (h : x0 ≠ x1) (y0 y1 s0 s1 u v : ℝ) :
    segment x0 x1 y0 y1 s0 s1 u v = ∫ z in u..v, (piecePoly x0 x1 y0 y1 s0 s1).eval z := by
  have hh : x1 - x0 ≠ 0 := sub_ne_zero.mpr h.symm
  have hd : ∀ z, (primPoly x0 x1 y0 y1 s0 s1).derivative.eval z = (piecePoly x0 x1 y0 y1 s0 s1).eval z := by
    intro z
    rw [piecePoly_eval]
    simp only [primPoly, derivative_add, derivative_mul, derivative_sub, derivative_pow, derivative_C, derivative_X, eval_add, eval_mul,
      eval_sub, eval_pow, eval_C, eval_X, eval_zero, eval_one, map_natCast, eval_natCast]
    push_cast
    field_simp
    ring
  rw [intervalIntegral.integral_eq_sub_of_hasDerivAt (f := fun z => (primPoly x0 x1 y0 y1 s0 s1).eval z)
    (fun z _ => by rw [← hd]; exact (primPoly x0 x1 y0 y1 s0 s1).hasDerivAt z)
    ((piecePoly x0 x1 y0 y1 s0 s1).continuous.intervalIntegrable _ _)]
  simp only [primPoly, eval_add, eval_mul, eval_sub, eval_pow, eval_C, eval_X, segment]
  ring

theorem spline_segment {n : ℕ} {x y M : ℕ → ℝ} {i : ℕ} (hi : i + 1 < n) (hne : x i ≠ x (i + 1)) (u v : ℝ) :
    (⟨⟨tab n x, tab n y, 2⟩, tab n M⟩ : Spline).segment i u v = .ret (∫ z in u..v, (pp x y M i).eval z) := by
  have h1 : x (i + 1) - x i ≠ 0 := sub_ne_zero.mpr hne.symm
  rw [Spline.segment]
  simp only [Table.X, Table.Y]
  rw [index_tab x (by omega), index_tab x hi, index_tab y (by omega), index_tab y hi, index_tab M (by omega), index_tab M hi]
  simp only [Outcome.bind_ret, if_neg h1]
  rw [segment_eq hne, pp]

theorem Sec.integral_cell {l : ℕ} {x y : ℕ → ℝ} {yp1 ypn : ℝ} {M : ℕ → ℝ} (h : Sec 1 l x y yp1 ypn M) {i : ℕ} {u v : ℝ} (huv : u ≤ v)
    (hu : Cell 1 (l + 2) x u i) (hv : Cell 1 (l + 2) x v i) :
    ∫ z in u..v, (pp x y M i).eval z = ∫ z in u..v, S0 l x y M z := by
  refine intervalIntegral.integral_congr fun z hz => ?_
  rw [uIcc_of_le huv] at hz
  refine (h.pieces0.eq z i ⟨hu.lt, ?_, ?_⟩).symm
  · rcases hu.low with h1 | h1
    · exact Or.inl h1
    · exact Or.inr (by linarith [hz.1])
  · rcases hv.high with h1 | h1
    · exact Or.inl h1
    · exact Or.inr (by linarith [hz.2])

theorem Sec.continuous0 {σ : ℝ} {l : ℕ} {x y : ℕ → ℝ} {yp1 ypn : ℝ} {M : ℕ → ℝ} (h : Sec σ l x y yp1 ypn M) :
    Continuous (S0 l x y M) := h.spline.smooth.continuous

theorem integrateUp_eq {l : ℕ} {x y : ℕ → ℝ} {yp1 ypn : ℝ} {M : ℕ → ℝ} (h : Sec 1 l x y yp1 ypn M) {a b : ℝ} (hab : a ≤ b) :
    (obj l x y M).integrateUp a b = if a < x 0 ∨ b > x (l + 1) then .exn (.mml "DomainError")
      else .ret (∫ z in a..b, S0 l x y M z) := by
  rw [Spline.integrateUp]
  simp only [obj, Table.minX, Table.maxX, Table.X, length_tab]
  rw [show l + 2 - 1 = l + 1 by omega, index_tab x (by omega), index_tab x (by omega)]
  simp only [Outcome.bind_ret]
  split
  · rfl
  rename_i hdom
  rw [not_or, not_lt, gt_iff_lt, not_lt] at hdom
  have hca := loc_cell (y := y) h.ord a
  have hcb := loc_cell (y := y) h.ord b
  change (if loc l x y a = loc l x y b then (⟨⟨tab (l + 2) x, tab (l + 2) y, 2⟩, tab (l + 2) M⟩ : Spline).segment (loc l x y a) a b
    else (⟨⟨tab (l + 2) x, tab (l + 2) y, 2⟩, tab (l + 2) M⟩ : Spline).several (loc l x y a) (loc l x y b) a b) = _
  split
  · rename_i heq
    rw [spline_segment hca.lt (h.ne hca.lt)]
    rw [← heq] at hcb
    rw [h.integral_cell hab hca hcb]
  · rename_i hne
    have hlt : loc l x y a < loc l x y b := by
      by_contra hcon
      have h1 : loc l x y b < loc l x y a := by omega
      obtain ⟨e1, e2⟩ : loc l x y a = loc l x y b + 1 ∧ a = b := by
        have k1 : 1 * b ≤ 1 * x (loc l x y b + 1) := hcb.high.resolve_left (by have := hca.lt; omega)
        have k2 : 1 * x (loc l x y a) ≤ 1 * a := hca.low.resolve_left (by omega)
        have k3 := h.ord.le (show loc l x y b + 1 ≤ loc l x y a by omega) (by have := hca.lt; omega)
        have hea : a = b := by linarith
        exact absurd (by rw [hea]) hne
      rw [e2] at e1
      omega
    generalize loc l x y a = i at *
    generalize loc l x y b = j at *
    have hi := hca.lt
    have hj := hcb.lt
    have c1 := h.continuous0
    have hint : ∀ u v, IntervalIntegrable (S0 l x y M) volume u v := fun u v => c1.intervalIntegrable _ _
    have kn : ∀ k, k + 1 < l + 2 → Cell 1 (l + 2) x (x k) k ∧ Cell 1 (l + 2) x (x (k + 1)) k := by
      intro k hk
      have := h.ord.lt k (k + 1) (by omega) hk
      exact ⟨⟨hk, Or.inr le_rfl, Or.inr this.le⟩, ⟨hk, Or.inr this.le, Or.inr le_rfl⟩⟩
    have ha1 : a ≤ x (i + 1) := by
      have := hca.high.resolve_left (by omega)
      linarith
    have hb1 : x j ≤ b := by
      have := hcb.low.resolve_left (by omega)
      linarith
    rw [Spline.several]
    simp only [Table.X]
    rw [index_tab x hi]
    simp only [Outcome.bind_ret]
    rw [spline_segment hi (h.ne hi), h.integral_cell ha1 hca (kn i hi).2]
    simp only [Outcome.bind_ret]
    obtain ⟨t, ht, rfl⟩ := forFromTo_rule (fun k (acc : ℝ) => acc = ∫ z in a..x k, S0 l x y M z) (i + 1) j (by omega)
      (0 + ∫ z in a..x (i + 1), S0 l x y M z) (Spline.whole ⟨⟨tab (l + 2) x, tab (l + 2) y, 2⟩, tab (l + 2) M⟩) (zero_add _)
      (by
        rintro k t hk1 hk2 rfl
        have hk : k + 1 < l + 2 := by omega
        have := h.ord.lt k (k + 1) (by omega) hk
        refine ⟨_, ?_, intervalIntegral.integral_add_adjacent_intervals (hint a (x k)) (hint (x k) (x (k + 1)))⟩
        rw [Spline.whole]
        simp only [Table.X]
        rw [index_tab x (by omega), index_tab x hk]
        simp only [Outcome.bind_ret]
        rw [spline_segment hk (h.ne hk), h.integral_cell (by linarith) (kn k hk).1 (kn k hk).2]
        rfl)
    rw [ht]
    simp only [Outcome.bind_ret]
    rw [index_tab x (by omega)]
    simp only [Outcome.bind_ret]
    rw [spline_segment hj (h.ne hj), h.integral_cell hb1 (kn j hj).1 hcb]
    simp only [Outcome.bind_ret]
    rw [intervalIntegral.integral_add_adjacent_intervals (hint _ _) (hint _ _)]

/-- C83: `Integrate(a, b)` is the integral of the spline from `a` to `b`, in either order; bounds outside the table are refused. -/
theorem spline_integrate (n : ℕ) (x y : ℕ → ℝ) (hx : Increasing n x) (yp1 ypn : ℝ) (f : Spline)
    (hf : Spline.new (tab n x) (tab n y) yp1 ypn = .ret f) (S : ℝ → ℝ) (hS : ∀ z, f.eval z = .ret (S z)) (a b : ℝ) :
    f.integrate a b = if a ∈ Icc (x 0) (x (n - 1)) ∧ b ∈ Icc (x 0) (x (n - 1)) then .ret (∫ z in a..b, S z)
      else .exn (.mml "DomainError") := by
  have hn : 2 ≤ n := by
    by_contra h
    rw [Spline.new, table_new_spec, if_neg (fun h' => h (by simpa using h'.1))] at hf
    cases hf
  obtain ⟨l, rfl⟩ : ∃ l, n = l + 2 := ⟨n - 2, by omega⟩
  obtain ⟨M, hM, hsec⟩ := spline_new hx.ordered y yp1 ypn
  rw [hM] at hf
  cases hf
  obtain rfl : S = S0 l x y M := by
    funext z
    have := hsec.eval z
    rw [obj, hS] at this
    exact Outcome.ret.inj this
  rw [Spline.integrate, show l + 2 - 1 = l + 1 by omega]
  have hup := fun {a b : ℝ} (hab : a ≤ b) => integrateUp_eq hsec hab
  simp only [obj] at hup
  by_cases hab : a > b
  · rw [if_pos hab, hup hab.le]
    by_cases hd : a ∈ Icc (x 0) (x (l + 1)) ∧ b ∈ Icc (x 0) (x (l + 1))
    · rw [if_pos hd, if_neg (by rintro (h | h) <;> linarith [hd.1.1, hd.1.2, hd.2.1, hd.2.2])]
      simp only [Outcome.bind_ret]
      rw [intervalIntegral.integral_symm, neg_neg]
    · rw [if_neg hd, if_pos]
      · rfl
      · by_contra hcon
        rw [not_or, not_lt, gt_iff_lt, not_lt] at hcon
        exact hd ⟨⟨by linarith [hcon.1], hcon.2⟩, ⟨hcon.1, by linarith [hcon.2]⟩⟩
  · rw [if_neg hab, hup (not_lt.mp hab)]
    rw [gt_iff_lt, not_lt] at hab
    by_cases hd : a ∈ Icc (x 0) (x (l + 1)) ∧ b ∈ Icc (x 0) (x (l + 1))
    · rw [if_pos hd, if_neg (by rintro (h | h) <;> linarith [hd.1.1, hd.1.2, hd.2.1, hd.2.2])]
    · rw [if_neg hd, if_pos]
      by_contra hcon
      rw [not_or, not_lt, gt_iff_lt, not_lt] at hcon
      exact hd ⟨⟨by linarith [hcon.1], by linarith [hcon.2]⟩, ⟨by linarith [hcon.1], hcon.2⟩⟩

/-- C83, the other direction: a decreasing table is accepted, evaluated and differentiated, but `Integrate` refuses all bounds. -/
theorem spline_integrate_decreasing (n : ℕ) (hn : 2 ≤ n) (x y : ℕ → ℝ) (hx : Decreasing n x) (yp1 ypn : ℝ) :
    ∃ f, Spline.new (tab n x) (tab n y) yp1 ypn = .ret f ∧ ∀ a b, f.integrate a b = .exn (.mml "DomainError") := by
  obtain ⟨l, rfl⟩ : ∃ l, n = l + 2 := ⟨n - 2, by omega⟩
  obtain ⟨M, hM, hsec⟩ := spline_new hx.ordered y yp1 ypn
  have hup : ∀ a b, a ≤ b → (⟨⟨tab (l + 2) x, tab (l + 2) y, 2⟩, tab (l + 2) M⟩ : Spline).integrateUp a b = .exn (.mml "DomainError") := by
    intro a b hab
    rw [Spline.integrateUp]
    simp only [Table.minX, Table.maxX, Table.X, length_tab]
    rw [show l + 2 - 1 = l + 1 by omega, index_tab x (by omega), index_tab x (by omega)]
    simp only [Outcome.bind_ret]
    rw [if_pos]
    have := hx 0 (l + 1) (by omega) (by omega)
    by_contra hcon
    rw [not_or, not_lt, gt_iff_lt, not_lt] at hcon
    linarith [hcon.1, hcon.2]
  refine ⟨_, hM, fun a b => ?_⟩
  rw [Spline.integrate]
  split
  · rename_i h
    rw [hup b a (le_of_lt h)]
    rfl
  · rename_i h
    exact hup a b (not_lt.mp h)

end Verif.Interp
