import Verif.Interp.SplineBasis
import Verif.Mat.DenseLemmas

/-!
# C86: bicubic splines on a grid
-/

set_option autoImplicit false

namespace Verif.Interp

open Verif Polynomial Finset

variable {σ : ℝ} {l : ℕ} {x : ℕ → ℝ}

/-- A combination of natural splines is one. -/
theorem NaturalSpline.sum {n m : ℕ} {x : ℕ → ℝ} {y : ℕ → ℕ → ℝ} {W : ℕ → ℝ → ℝ} (h : ∀ k < m, NaturalSpline n x (y k) (W k)) (c : ℕ → ℝ) :
    NaturalSpline n x (fun i => ∑ k ∈ range m, c k * y k i) (fun z => ∑ k ∈ range m, c k * W k z) := by
  have hd : ∀ k < m, ∀ z, DifferentiableAt ℝ (W k) z := fun k hk z => ((h k hk).spline.smooth.differentiable (by norm_num)).differentiableAt
  have hd2 : ∀ k < m, ∀ z, DifferentiableAt ℝ (deriv (W k)) z := fun k hk z =>
    (((contDiff_succ_iff_deriv (n := 1)).mp (h k hk).spline.smooth).2.2.differentiable (by norm_num)).differentiableAt
  have e1 : deriv (fun z => ∑ k ∈ range m, c k * W k z) = fun z => ∑ k ∈ range m, c k * deriv (W k) z := by
    funext z
    rw [deriv_fun_sum fun k hk => (hd k (mem_range.mp hk) z).const_mul _]
    exact sum_congr rfl fun k hk => deriv_const_mul _ (hd k (mem_range.mp hk) z)
  have e2 : deriv (deriv fun z => ∑ k ∈ range m, c k * W k z) = fun z => ∑ k ∈ range m, c k * deriv (deriv (W k)) z := by
    rw [e1]
    funext z
    rw [deriv_fun_sum fun k hk => (hd2 k (mem_range.mp hk) z).const_mul _]
    exact sum_congr rfl fun k hk => deriv_const_mul _ (hd2 k (mem_range.mp hk) z)
  refine ⟨⟨?_, ?_, ?_⟩, ?_, ?_⟩
  · exact ContDiff.sum fun k hk => contDiff_const.mul (h k (mem_range.mp hk)).spline.smooth
  · intro i hi
    exact sum_congr rfl fun k hk => by rw [(h k (mem_range.mp hk)).spline.values i hi]
  · intro i hi
    have hp : ∀ k, ∃ p : Polynomial ℝ, k < m → p.natDegree ≤ 3 ∧ ∀ z, Between (x i) z (x (i + 1)) → W k z = p.eval z := by
      intro k
      by_cases hk : k < m
      · obtain ⟨p, hp⟩ := (h k hk).spline.cubic i hi
        exact ⟨p, fun _ => hp⟩
      · exact ⟨0, fun h => absurd h hk⟩
    choose p hp using hp
    refine ⟨∑ k ∈ range m, C (c k) * p k, ?_, fun z hz => ?_⟩
    · exact natDegree_sum_le_of_forall_le _ _ fun k hk => (natDegree_C_mul_le _ _).trans (hp k (mem_range.mp hk)).1
    · rw [eval_finsetSum]
      refine sum_congr rfl fun k hk => ?_
      rw [eval_mul, eval_C, (hp k (mem_range.mp hk)).2 z hz]
  · rw [e2]
    exact sum_eq_zero fun k hk => by rw [(h k (mem_range.mp hk)).first, mul_zero]
  · rw [e2]
    exact sum_eq_zero fun k hk => by rw [(h k (mem_range.mp hk)).last, mul_zero]

theorem NaturalSpline.congr {n : ℕ} {x y y' : ℕ → ℝ} {S : ℝ → ℝ} (h : NaturalSpline n x y S) (hy : ∀ i < n, y' i = y i) :
    NaturalSpline n x y' S :=
  ⟨⟨h.spline.smooth, fun i hi => (h.spline.values i hi).trans (hy i hi).symm, h.spline.cubic⟩, h.first, h.last⟩

theorem natural_basis' (n : ℕ) (hn : 2 ≤ n) (x : ℕ → ℝ) (hx : Increasing n x ∨ Decreasing n x) : ∃ W : ℕ → ℝ → ℝ,
    (∀ k, NaturalSpline n x (unitAt k) (W k)) ∧
    ∀ y, ∃ f, Spline.new (tab n x) (tab n y) naturalEnd naturalEnd = .ret f ∧
      ∀ z, f.eval z = .ret (∑ k ∈ range n, y k * W k z) ∧ f.derivative z = .ret (∑ k ∈ range n, y k * deriv (W k) z) := by
  obtain ⟨l, rfl⟩ : ∃ l, n = l + 2 := ⟨n - 2, by omega⟩
  obtain ⟨σ, hσ⟩ := exists_ordered hx
  obtain ⟨W, hW, h⟩ := natural_basis hσ
  exact ⟨W, fun k => ⟨(hW k).1, (hW k).2.1, (hW k).2.2⟩, h⟩

/-- The rows of the matrix become splines. -/
theorem rows_eq (m n : ℕ) (x2 : ℕ → ℝ) (z : ℕ → ℕ → ℝ) (s : ℕ → Spline)
    (hs : ∀ i < m, Spline.new (tab n x2) (tab n (z i)) naturalEnd naturalEnd = .ret (s i)) :
    forRange m [] (rowSplineStep (tab n x2) (Mat.Dense.ofFn m n z)) = .ret (tab m s) := by
  have hrow : ∀ i < m, forRange n (List.replicate n 0) (rowStep (Mat.Dense.ofFn m n z) i) = .ret (tab n (z i)) := by
    intro i hi
    rw [replicate_eq_tab]
    have := forRange_fill n n le_rfl (fun _ => (0 : ℝ)) (z i) (rowStep (Mat.Dense.ofFn m n z) i) (fun j hj r => by
      rw [rowStep, Mat.Dense.get_ofFn z hi hj, Outcome.bind_ret])
    rw [this]
    exact congrArg _ (tab_congr fun k hk => by rw [if_pos hk])
  have key : ∀ k ≤ m, forRange k [] (rowSplineStep (tab n x2) (Mat.Dense.ofFn m n z)) = .ret (tab k s) := by
    intro k
    induction k with
    | zero => intro _; rfl
    | succ k ih =>
      intro hk
      rw [forRange, ih (by omega), Outcome.bind_ret, rowSplineStep, length_tab, hrow k (by omega), Outcome.bind_ret, hs k (by omega),
        Outcome.bind_ret]
      refine congrArg _ ?_
      rw [tab, tab, List.range_succ, List.map_append]
      rfl
  exact key m le_rfl

theorem fill_values (m : ℕ) (v : ℕ → ℝ) (body : List ℝ → ℕ → Outcome (List ℝ))
    (h : ∀ i < m, ∀ r, body r i = Outcome.store r i (v i)) : forRange m (List.replicate m 0) body = .ret (tab m v) := by
  rw [replicate_eq_tab, forRange_fill m m le_rfl _ v body h]
  exact congrArg _ (tab_congr fun k hk => by rw [if_pos hk])

/-- C86: on a grid with at least two strictly monotone abscissas in each direction the constructor succeeds, the value is defined
everywhere and is a function `F` of two variables that is twice continuously differentiable jointly, takes the given values at the
grid points and is a natural cubic spline in each variable with the other fixed; the derivatives computed are its partial derivatives. -/
theorem bicubic_spec (m n : ℕ) (hm : 2 ≤ m) (hn : 2 ≤ n) (x1 x2 : ℕ → ℝ) (z : ℕ → ℕ → ℝ) (h1 : Increasing m x1 ∨ Decreasing m x1)
    (h2 : Increasing n x2 ∨ Decreasing n x2) :
    ∃ f, Bicubic.new (tab m x1) (tab n x2) (Mat.Dense.ofFn m n z) = .ret f ∧ ∃ F : ℝ → ℝ → ℝ,
      ContDiff ℝ 2 (fun p : ℝ × ℝ => F p.1 p.2) ∧ (∀ i < m, ∀ j < n, F (x1 i) (x2 j) = z i j) ∧
      (∀ b, NaturalSpline m x1 (fun i => F (x1 i) b) fun a => F a b) ∧ (∀ a, NaturalSpline n x2 (fun j => F a (x2 j)) (F a)) ∧
      ∀ a b, f.eval a b = .ret (F a b) ∧ f.withDerivs a b = .ret (F a b, deriv (fun t => F t b) a, deriv (F a) b) := by
  obtain ⟨U, hU, hU2⟩ := natural_basis' m hm x1 h1
  obtain ⟨W, hW, hW2⟩ := natural_basis' n hn x2 h2
  choose s hs hs2 using fun i => hW2 (z i)
  choose c hc hc2 using hU2
  have hF1 : ∀ a b, ∑ i ∈ range m, (∑ j ∈ range n, z i j * W j b) * U i a = ∑ j ∈ range n, (∑ i ∈ range m, z i j * U i a) * W j b := by
    intro a b
    simp only [sum_mul]
    rw [sum_comm]
    exact sum_congr rfl fun _ _ => sum_congr rfl fun _ _ => by ring
  have hsm : ContDiff ℝ 2 fun p : ℝ × ℝ => ∑ i ∈ range m, (∑ j ∈ range n, z i j * W j p.2) * U i p.1 := by
    refine ContDiff.sum fun i _ => ContDiff.mul (ContDiff.sum fun j _ => contDiff_const.mul ?_) ?_
    · exact (hW j).spline.smooth.comp contDiff_snd
    · exact (hU i).spline.smooth.comp contDiff_fst
  have hdU : ∀ i a, DifferentiableAt ℝ (U i) a := fun i a => ((hU i).spline.smooth.differentiable (by norm_num)).differentiableAt
  have hdW : ∀ i a, DifferentiableAt ℝ (W i) a := fun i a => ((hW i).spline.smooth.differentiable (by norm_num)).differentiableAt
  have hval : ∀ b, forRange (tab m x1).length (List.replicate (tab m x1).length 0) (Bicubic.valueStep ⟨tab m x1, tab m s⟩ b) =
      .ret (tab m fun i => ∑ j ∈ range n, z i j * W j b) := by
    intro b
    rw [length_tab]
    exact fill_values m _ _ fun i hi r => by
      rw [Bicubic.valueStep, index_tab s hi, Outcome.bind_ret, (hs2 i b).1, Outcome.bind_ret]
  have hslope : ∀ b, forRange (tab m x1).length (List.replicate (tab m x1).length 0) (Bicubic.slopeStep ⟨tab m x1, tab m s⟩ b) =
      .ret (tab m fun i => ∑ j ∈ range n, z i j * deriv (W j) b) := by
    intro b
    rw [length_tab]
    exact fill_values m _ _ fun i hi r => by
      rw [Bicubic.slopeStep, index_tab s hi, Outcome.bind_ret, (hs2 i b).2, Outcome.bind_ret]
  refine ⟨⟨tab m x1, tab m s⟩, ?_, fun a b => ∑ i ∈ range m, (∑ j ∈ range n, z i j * W j b) * U i a, hsm, ?_, ?_, ?_, ?_⟩
  · rw [Bicubic.new, if_neg (by simp), length_tab, rows_eq m n x2 z s fun i _ => hs i]
    rfl
  · intro i hi j hj
    have e : ∀ k, U k (x1 i) = unitAt k i := fun k => (hU k).spline.values i hi
    have e' : ∀ k, W k (x2 j) = unitAt k j := fun k => (hW k).spline.values j hj
    simp only [e, e']
    rw [sum_unitAt m (fun i => ∑ k ∈ range n, z i k * unitAt k j) hi, sum_unitAt n (z i) hj]
  · intro b
    refine (NaturalSpline.sum (fun k _ => hU k) fun i => ∑ j ∈ range n, z i j * W j b).congr fun i hi => ?_
    exact sum_congr rfl fun k _ => by rw [(hU k).spline.values i hi]
  · intro a
    have : (fun b => ∑ i ∈ range m, (∑ j ∈ range n, z i j * W j b) * U i a) = fun b => ∑ j ∈ range n, (∑ i ∈ range m, z i j * U i a) * W j b :=
      funext fun b => hF1 a b
    dsimp only
    rw [this]
    refine (NaturalSpline.sum (fun k _ => hW k) fun j => ∑ i ∈ range m, z i j * U i a).congr fun j hj => ?_
    rw [hF1]
    exact sum_congr rfl fun k _ => by rw [(hW k).spline.values j hj]
  · intro a b
    constructor
    · rw [Bicubic.eval, hval, Outcome.bind_ret]
      dsimp only
      rw [hc, Outcome.bind_ret, (hc2 _ a).1]
    · rw [Bicubic.withDerivs, hval, Outcome.bind_ret, hslope, Outcome.bind_ret]
      dsimp only
      rw [hc, Outcome.bind_ret, (hc2 _ a).1, Outcome.bind_ret, (hc2 _ a).2, Outcome.bind_ret, hc, Outcome.bind_ret, (hc2 _ a).1, Outcome.bind_ret]
      rw [deriv_fun_sum fun i _ => (hdU i a).const_mul _, deriv_fun_sum fun i _ => (DifferentiableAt.fun_sum fun j _ => (hdW j b).const_mul _).mul_const _]
      refine congrArg Outcome.ret (Prod.ext rfl (Prod.ext ?_ ?_))
      · dsimp only
        exact sum_congr rfl fun i _ => (deriv_const_mul _ (hdU i a)).symm
      · dsimp only
        refine sum_congr rfl fun i _ => ?_
        rw [deriv_mul_const (DifferentiableAt.fun_sum fun j _ => (hdW j b).const_mul _), deriv_fun_sum fun j _ => (hdW j b).const_mul _]
        exact congrArg (· * _) (sum_congr rfl fun j _ => (deriv_const_mul _ (hdW j b)).symm)

/-- C86: the constructor refuses a matrix of another shape. -/
theorem bicubic_shape (x1 x2 : List ℝ) (z : Mat.Dense ℝ) (h : z.rows ≠ x1.length ∨ z.cols ≠ x2.length) :
    Bicubic.new x1 x2 z = .exn (.mml "RealFuncInterpInitError") := by
  rw [Bicubic.new, if_pos h]

/-- Two natural splines on a table through the same points are equal on it, with the derivative. -/
theorem NaturalSpline.unique {n : ℕ} {x y : ℕ → ℝ} {S T : ℝ → ℝ} (hn : 2 ≤ n) (hx : Increasing n x) (hS : NaturalSpline n x y S)
    (hT : NaturalSpline n x y T) {a : ℝ} (ha : x 0 ≤ a) (hb : a ≤ x (n - 1)) : S a = T a := by
  obtain ⟨l, rfl⟩ : ∃ l, n = l + 2 := ⟨n - 2, by omega⟩
  have e : ∀ d : ℝ, ∀ d2 : ℝ, d2 = 0 → EndCondition naturalEnd d d2 := fun d d2 h => by rw [EndCondition, if_pos natural_big, h]
  exact hS.spline.unique hx hT.spline (e _ _ hS.first) (e _ _ hT.first) (e _ _ hS.last) (e _ _ hT.last) a ⟨ha, hb⟩

/-- C86: on the rectangle of the grid the value is the one obtained from any functions `G` (a natural spline in `x1` for every `x2`)
that restrict to natural splines through the rows: the order of the two interpolations is immaterial, and what is computed is determined
by the grid alone. -/
theorem bicubic_unique (m n : ℕ) (hm : 2 ≤ m) (hn : 2 ≤ n) (x1 x2 : ℕ → ℝ) (z : ℕ → ℕ → ℝ) (h1 : Increasing m x1) (h2 : Increasing n x2)
    (f : Bicubic) (hf : Bicubic.new (tab m x1) (tab n x2) (Mat.Dense.ofFn m n z) = .ret f) (G : ℝ → ℝ → ℝ)
    (hG : ∀ i < m, ∀ j < n, G (x1 i) (x2 j) = z i j) (hG1 : ∀ b, NaturalSpline m x1 (fun i => G (x1 i) b) fun a => G a b)
    (hG2 : ∀ a, NaturalSpline n x2 (fun j => G a (x2 j)) (G a)) (a b : ℝ) (ha : x1 0 ≤ a ∧ a ≤ x1 (m - 1)) (hb : x2 0 ≤ b ∧ b ≤ x2 (n - 1)) :
    f.eval a b = .ret (G a b) := by
  obtain ⟨f', hf', F, _, hF, hF1, hF2, he⟩ := bicubic_spec m n hm hn x1 x2 z (Or.inl h1) (Or.inl h2)
  rw [hf] at hf'
  cases hf'
  rw [(he a b).1]
  have hrow : ∀ i < m, F (x1 i) b = G (x1 i) b := fun i hi =>
    NaturalSpline.unique hn h2 (hF2 (x1 i)) ((hG2 (x1 i)).congr fun j hj => by rw [hF i hi j hj, hG i hi j hj]) hb.1 hb.2
  exact congrArg _ (NaturalSpline.unique hm h1 (hF1 b) ((hG1 b).congr hrow) ha.1 ha.2)

/-- C86: functions `p + q x1 + r x2 + s x1 x2` are reproduced on the rectangle. -/
theorem bicubic_exact (m n : ℕ) (hm : 2 ≤ m) (hn : 2 ≤ n) (x1 x2 : ℕ → ℝ) (p q r s : ℝ) (h1 : Increasing m x1) (h2 : Increasing n x2)
    (f : Bicubic) (hf : Bicubic.new (tab m x1) (tab n x2) (Mat.Dense.ofFn m n fun i j => p + q * x1 i + r * x2 j + s * x1 i * x2 j) = .ret f)
    (a b : ℝ) (ha : x1 0 ≤ a ∧ a ≤ x1 (m - 1)) (hb : x2 0 ≤ b ∧ b ≤ x2 (n - 1)) :
    f.eval a b = .ret (p + q * a + r * b + s * a * b) := by
  have line : ∀ (k : ℕ) (x : ℕ → ℝ) (u v : ℝ) (S : ℝ → ℝ), (∀ t, S t = u + v * t) → NaturalSpline k x (fun i => S (x i)) S := by
    intro k x u v S hS
    obtain rfl : S = fun t => u + v * t := funext hS
    have e : deriv (deriv fun t : ℝ => u + v * t) = fun _ => 0 := by
      have : (deriv fun t : ℝ => u + v * t) = fun _ => v := by
        funext t
        have := ((hasDerivAt_id t).const_mul v).const_add u
        simpa using this.deriv
      rw [this]
      funext t
      exact deriv_const t v
    refine ⟨⟨by fun_prop, fun _ _ => rfl, fun i _ => ⟨C u + C v * X, ?_, fun t _ => by simp⟩⟩, by rw [e], by rw [e]⟩
    compute_degree!
  refine bicubic_unique m n hm hn x1 x2 _ h1 h2 f hf (fun a b => p + q * a + r * b + s * a * b) (fun _ _ _ _ => rfl) (fun b => ?_) (fun a => ?_) a b ha hb
  · exact line m x1 (p + r * b) (q + s * b) (fun a => p + q * a + r * b + s * a * b) fun t => by ring
  · exact line n x2 (p + q * a) (r + s * a) (fun b => p + q * a + r * b + s * a * b) fun t => by ring

/-- Non-vacuity: a grid with three and two abscissas. -/
example : ∃ f, Bicubic.new (tab 3 fun i => (i : ℝ)) (tab 2 fun i => (i : ℝ)) (Mat.Dense.ofFn 3 2 fun i j => (i : ℝ) * j) = .ret f ∧
    f.eval (3 / 2) (1 / 2) = .ret (3 / 4) := by
  have hinc : ∀ n, Increasing n fun i => (i : ℝ) := fun n i j hij _ => Nat.cast_lt.mpr hij
  obtain ⟨f, hf, _⟩ := bicubic_spec 3 2 (by norm_num) (by norm_num) (fun i => (i : ℝ)) (fun i => (i : ℝ)) (fun i j => (i : ℝ) * j)
    (Or.inl (hinc 3)) (Or.inl (hinc 2))
  refine ⟨f, hf, ?_⟩
  have := bicubic_exact 3 2 (by norm_num) (by norm_num) (fun i => (i : ℝ)) (fun i => (i : ℝ)) 0 0 0 1 (hinc 3) (hinc 2) f
    (by simpa using hf) (3 / 2) (1 / 2) (by norm_num) (by norm_num)
  rw [this]
  norm_num

end Verif.Interp
