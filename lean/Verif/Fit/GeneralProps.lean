import Verif.Fit.General
import Verif.Fit.Props
import Verif.LinAlg.SVDProps
import Mathlib.LinearAlgebra.Lagrange

/-!
# C109: general linear and polynomial fits

`decompose` is any routine that returns a singular value decomposition of the design matrix; `gram` below is the residual sum of
squares of given coefficients.
-/

set_option autoImplicit false

namespace Verif.Fit

open Verif.Mat Verif.LinAlg Finset

/-- The sum of the squared residuals of `∑ c_j f_j` at the points. -/
noncomputable def sumSqGen (pts : List (ℝ × ℝ)) (basis : List (ℝ → ℝ)) (c : ℕ → ℝ) : ℝ :=
  (pts.map fun p => (p.2 - ∑ j ∈ range basis.length, c j * basis.getD j 0 p.1) ^ 2).sum

/-- The elements of the design matrix. -/
noncomputable def designOf (xs : List ℝ) (basis : List (ℝ → ℝ)) (i j : ℕ) : ℝ := basis.getD j 0 (xs.getD i 0)

/-! ## Evaluation -/

/-- **C109.**  `evaluate` is `∑ c_j f_j(x)`; another number of functions than of coefficients is refused. -/
theorem evaluate_spec (c : List ℝ) (x : ℝ) (basis : List (ℝ → ℝ)) :
    (c.length = basis.length → evaluate c x basis = .ret (∑ j ∈ range c.length, c.getD j 0 * basis.getD j 0 x)) ∧
    (c.length ≠ basis.length → evaluate c x basis = .exn (.mml "CurveFittingError")) := by
  refine ⟨fun h => ?_, fun h => by rw [evaluate, if_pos h]; rfl⟩
  rw [evaluate, if_neg (by simpa using h), forRange_sum _ 0 _ (fun j => c.getD j 0 * basis.getD j 0 x), zero_add]
  intro i hi s
  rw [Outcome.index, Outcome.index]
  simp [List.getElem?_eq_getElem hi, List.getElem?_eq_getElem (h ▸ hi), List.getD]

example : evaluate [2, 3] 5 [fun _ => 1, fun x => x] = .ret 17 := by
  rw [(evaluate_spec _ _ _).1 rfl]; norm_num [Finset.sum_range_succ]

/-! ## The fit -/

theorem design_eq {m n : ℕ} (hs : Dense.Shape m n) (X : ℕ → ℝ) (F : ℕ → ℝ → ℝ) :
    design m n (tab m X) (tab n F) = .ret (Dense.ofFn m n fun i j => F j (X i)) := by
  rw [design, Dense.new_spec hs, Outcome.bind_ret, Dense.forRange_row m _ (fun i j => F j (X i)) le_rfl]
  · congr 1
    exact Dense.ofFn_congr fun i hi j _ => by rw [if_pos hi]
  · intro i hi G hG
    rw [Dense.forRange_cols n i G (fun j => F j (X i)) hi le_rfl]
    · congr 1
      refine Dense.ofFn_congr fun p _ q hq => ?_
      rw [if_pos hq]
    · intro j hj a
      rw [index_tab _ hj, Outcome.bind_ret, index_tab _ hi, Outcome.bind_ret]

theorem genRes_eq {m n : ℕ} (A : ℕ → ℕ → ℝ) (c Y : ℕ → ℝ) :
    genRes m n (Dense.ofFn m n A) (tab n c) (tab m Y) = .ret (∑ i ∈ range m, (Y i - ∑ j ∈ range n, c j * A i j) ^ 2) := by
  rw [genRes, forRange_sum m 0 _ (fun i => (Y i - ∑ j ∈ range n, c j * A i j) ^ 2), zero_add]
  intro i hi s
  rw [forRange_sum n 0 _ (fun j => c j * A i j), zero_add, Outcome.bind_ret, index_tab _ hi, Outcome.bind_ret, sq]
  intro j hj s
  rw [index_tab _ hj, Outcome.bind_ret, Dense.get_ofFn _ hi hj, Outcome.bind_ret]

theorem effRank_eq (eps : ℝ) {m n : ℕ} (hn : 0 < n) (w : ℕ → ℝ) :
    effRank eps m n (tab n w) = .ret ((range n).filter fun k => w k > SVD.limit m n eps (-1) w).card := by
  rw [effRank, index_tab _ hn, Outcome.bind_ret, forRange_sum n 0 _ (fun k => if w k > SVD.limit m n eps (-1) w then 1 else 0),
    zero_add, Finset.card_filter]
  intro i hi c
  have e : SVD.limit m n eps (-1) w = 0.5 * Real.sqrt (m + n + 1.0) * w 0 * eps := by
    rw [SVD.limit, if_neg (show ¬ ((-1 : ℝ) ≥ 0) by norm_num)]
  rw [index_tab _ hi, Outcome.bind_ret, e]
  by_cases h : w i > 0.5 * Real.sqrt (m + n + 1.0) * w 0 * eps
  · rw [if_pos h, if_pos h]
  · rw [if_neg h, if_neg h]; rfl

/-- The prefix of a descending sequence above a bound. -/
theorem sorted_prefix {n : ℕ} {w : ℕ → ℝ} (hs : ∀ i j, i < j → j < n → w j ≤ w i) (t : ℝ) (k : ℕ) (hk : k < n) :
    w k > t ↔ k < ((range n).filter fun k => w k > t).card := by
  constructor
  · intro h
    have : range (k + 1) ⊆ (range n).filter fun k => w k > t := by
      intro j hj
      have hj' := mem_range.1 hj
      refine Finset.mem_filter.2 ⟨mem_range.2 (by omega), ?_⟩
      by_cases e : j = k
      · rw [e]; exact h
      · exact lt_of_lt_of_le h (hs j k (by omega) hk)
    have := Finset.card_le_card this
    simp only [card_range] at this
    omega
  · intro h
    by_contra hc
    have : ((range n).filter fun k => w k > t) ⊆ range k := by
      intro j hj
      obtain ⟨h1, h2⟩ := Finset.mem_filter.1 hj
      rw [mem_range]
      by_contra hjk
      by_cases e : j = k
      · rw [e] at h2; exact hc h2
      · exact hc (lt_of_lt_of_le h2 (hs k j (by omega) (mem_range.1 h1)))
    have := Finset.card_le_card this
    simp only [card_range] at this
    omega

/-- **C109.**  Malformed requests are refused: sequences of different lengths, no data, no functions, fewer points than functions. -/
theorem generalFit_refused (eps : ℝ) (dec : Dense ℝ → Outcome SVD.Fac) (xs ys : List ℝ) (basis : List (ℝ → ℝ))
    (h : xs.length ≠ ys.length ∨ xs = [] ∨ basis = [] ∨ xs.length < basis.length) :
    generalFit eps dec xs ys basis = .exn (.mml "CurveFittingError") := by
  rw [generalFit]
  split_ifs with h1 h2 h3 h4
  · rfl
  · rfl
  · rfl
  · rfl
  · rcases h with h | h | h | h
    · exact absurd h h1
    · rw [h] at h2; simp at h2
    · rw [h] at h3; simp at h3
    · exact absurd h h4

/-- `decompose` returns a singular value decomposition of the design matrix. -/
structure Decomposes (dec : Dense ℝ → Outcome SVD.Fac) (xs : List ℝ) (basis : List (ℝ → ℝ)) (w : ℕ → ℝ) : Prop where
  shape : Dense.Shape xs.length basis.length
  ok : ∃ s U V, dec (Dense.ofFn xs.length basis.length (designOf xs basis)) = .ret s ∧
    SVD.Holds s xs.length basis.length U w V ∧ SVD.IsSVD xs.length basis.length (designOf xs basis) U w V

/-- Each of the singular values `w` is zero or greater than `½ √(m + n + 1) eps` times the largest. -/
def Gap (eps : ℝ) (m n : ℕ) (w : ℕ → ℝ) : Prop :=
  ∀ k < n, w k = 0 ∨ ∀ l < n, w k > 0.5 * Real.sqrt (m + n + 1.0) * w l * eps

/-- **C109.**  The general linear fit.  The norm, the mean squared error and the coefficient of determination belong to the
coefficients returned, the effective rank is the number of singular values above the threshold, and the condition number is the
quotient of the largest and the smallest of these.  If the singular values are zero or above the threshold, the coefficients
minimise the residual sum of squares, and are the shortest of the minimisers. -/
theorem generalFit_spec (eps : ℝ) (he : 0 < eps) (dec : Dense ℝ → Outcome SVD.Fac) (xs ys : List ℝ) (basis : List (ℝ → ℝ))
    (hl : xs.length = ys.length) (hb : basis ≠ []) (hle : basis.length ≤ xs.length) (w : ℕ → ℝ)
    (hdec : Decomposes dec xs basis w) :
    ∃ (g : GenFit) (c w' : ℕ → ℝ), generalFit eps dec xs ys basis = .ret g ∧ g.coeffs = tab basis.length c ∧ g.m = xs.length ∧ g.n = basis.length ∧
      (∃ π : Equiv.Perm ℕ, (∀ k, π k < basis.length ↔ k < basis.length) ∧ ∀ k, w' k = w (π k)) ∧
      (∀ i j, i < j → j < basis.length → w' j ≤ w' i) ∧
      g.norm = Real.sqrt (sumSqGen (points xs ys) basis c) ∧
      g.mse = sumSqGen (points xs ys) basis c / xs.length ∧
      g.r2 = (if (ys.map fun y => (y - ys.sum / ys.length) ^ 2).sum > eps
        then 1 - sumSqGen (points xs ys) basis c / (ys.map fun y => (y - ys.sum / ys.length) ^ 2).sum
        else if sumSqGen (points xs ys) basis c < eps then 1 else 0) ∧
      g.adj = (if (ys.map fun y => (y - ys.sum / ys.length) ^ 2).sum > eps ∧ xs.length > basis.length
        then 1 - (1 - g.r2) * (xs.length - 1) / (xs.length - basis.length) else g.r2) ∧
      g.rank = ((range basis.length).filter fun k => w' k > 0.5 * Real.sqrt (xs.length + basis.length + 1.0) * w' 0 * eps).card ∧
      (g.rank = 0 → g.cond = none) ∧ (0 < g.rank → g.cond = some (w' 0 / w' (g.rank - 1))) ∧
      (Gap eps xs.length basis.length w →
        (∀ z, sumSqGen (points xs ys) basis c ≤ sumSqGen (points xs ys) basis z) ∧
        ∀ z, sumSqGen (points xs ys) basis z ≤ sumSqGen (points xs ys) basis c →
          ∑ j ∈ range basis.length, c j ^ 2 ≤ ∑ j ∈ range basis.length, z j ^ 2) := by
  obtain ⟨hs, s, U, V, hd, hH, hA⟩ := hdec
  have hn0 : 0 < basis.length := List.length_pos_iff.2 hb
  have hm0 : 0 < xs.length := by omega
  obtain ⟨X, Y, hX, hY⟩ := exists_tabs xs ys hl
  have hF : basis = tab basis.length (fun j => basis.getD j 0) := eq_tab basis 0
  set F : ℕ → ℝ → ℝ := fun j => basis.getD j 0 with hFdef
  set m := xs.length with hm
  set n := basis.length with hn
  have hXg : ∀ i < m, xs.getD i 0 = X i := fun i hi => by
    conv_lhs => rw [hX]
    exact getD_tab m X 0 hi
  have hdes : ∀ i < m, ∀ j < n, designOf xs basis i j = F j (X i) := fun i hi j _ => by
    rw [designOf, hXg i hi]
  obtain ⟨s', U', w', V', h1, h2, h3, h4, ⟨π, hπ, hπw⟩, -⟩ := SVD.new_spec dec _ (Dense.is_ofFn hs (designOf xs basis)) hn0 s hd hH hA
  have hsolve := SVD.solve_eq eps (-1) he.le hn0 h2 h3 Y
  set c := SVD.sol m n U' (fun k => if w' k > SVD.limit m n eps (-1) w' then w' k else 0) V' Y with hc
  have hdesign : design m n xs basis = .ret (Dense.ofFn m n (designOf xs basis)) := by
    conv_lhs => rw [hX, hF]
    rw [design_eq hs X F]
    congr 1
    exact Dense.ofFn_congr fun i hi j hj => (hdes i hi j hj).symm
  have hss : ∀ z, sumSqGen (points xs ys) basis z = ∑ i ∈ range m, (Y i - ∑ j ∈ range n, z j * designOf xs basis i j) ^ 2 := by
    intro z
    have e1 : points xs ys = (tab m X).zip (tab m Y) := by rw [points, ← hX, ← hY]
    rw [sumSqGen, e1, zip_tab, map_tab, sum_tab]
    refine Finset.sum_congr rfl fun i hi => ?_
    have hi' := mem_range.1 hi
    simp only
    congr 2
    refine Finset.sum_congr rfl fun j hj => ?_
    rw [hdes i hi' j (mem_range.1 hj)]
  have hres : ∀ z, sumSqGen (points xs ys) basis z = SVD.resid2 m n (designOf xs basis) Y z := by
    intro z
    rw [hss, SVD.resid2]
    refine Finset.sum_congr rfl fun i _ => ?_
    rw [Finset.sum_congr rfl (fun j _ => mul_comm (z j) (designOf xs basis i j))]
    ring
  have htot : (ys.map fun y => (y - ys.sum / ys.length) ^ 2).sum = ∑ i ∈ range m, (Y i - (∑ i ∈ range m, Y i) / m) * (Y i - (∑ i ∈ range m, Y i) / m) := by
    conv_lhs => rw [hY]
    rw [map_tab, sum_tab, sum_tab, length_tab]
    exact Finset.sum_congr rfl fun i _ => by rw [sq]
  have hm0' : (m : ℝ) ≠ 0 := by exact_mod_cast hm0.ne'
  have hlim := SVD.limit_nonneg eps (-1) he.le hn0 h3
  have hlimE : SVD.limit m n eps (-1) w' = 0.5 * Real.sqrt (m + n + 1.0) * w' 0 * eps := by
    rw [SVD.limit, if_neg (show ¬ ((-1 : ℝ) ≥ 0) by norm_num)]
  set rk := ((range n).filter fun k => w' k > SVD.limit m n eps (-1) w').card with hrk
  have hrkle : rk ≤ n := (Finset.card_filter_le _ _).trans (by simp)
  have hcond : condOf (tab n w') rk = .ret (if rk = 0 then none else some (w' 0 / w' (rk - 1))) := by
    rw [condOf]
    by_cases h0 : rk = 0
    · rw [if_neg (by omega), if_pos h0]
    · have hpos : 0 < w' (rk - 1) := lt_of_le_of_lt hlim
        ((sorted_prefix h4 (SVD.limit m n eps (-1) w') (rk - 1) (by omega)).2 (by omega))
      rw [if_pos (by omega), index_tab _ (by omega), Outcome.bind_ret, if_pos hpos, index_tab _ hn0, Outcome.bind_ret,
        divU_of_ne hpos.ne', Outcome.bind_ret, if_neg h0]
  have hsw : s'.w = tab n w' := h2.w
  refine ⟨⟨tab n c, Real.sqrt (sumSqGen (points xs ys) basis c),
      r2Of eps (sumSqGen (points xs ys) basis c) (ys.map fun y => (y - ys.sum / ys.length) ^ 2).sum,
      sumSqGen (points xs ys) basis c / m,
      adjOf eps (ys.map fun y => (y - ys.sum / ys.length) ^ 2).sum
        (r2Of eps (sumSqGen (points xs ys) basis c) (ys.map fun y => (y - ys.sum / ys.length) ^ 2).sum) m n,
      m, n, rk, if rk = 0 then none else some (w' 0 / w' (rk - 1))⟩, c, w', ?_⟩
  refine ⟨?_, rfl, rfl, rfl, ⟨π, hπ, hπw⟩, h4, rfl, rfl, rfl, ?_, ?_, fun h => if_pos h, fun h => if_neg (Nat.ne_of_gt h), ?_⟩
  · rw [generalFit, if_neg (by simpa using hl), if_neg (by omega), if_neg (by omega), if_neg (by omega)]
    rw [← hm, ← hn, hdesign, Outcome.bind_ret, h1, Outcome.bind_ret, hY, hsolve, Outcome.bind_ret, genRes_eq, Outcome.bind_ret,
      ← hss, divU_of_ne hm0', Outcome.bind_ret, meanOf_tab hm0.ne', Outcome.bind_ret, totSum_tab, Outcome.bind_ret, ← htot, hsw,
      effRank_eq eps hn0, Outcome.bind_ret, hcond, Outcome.bind_ret]
    rw [← hY]
  · simp only [adjOf]
    by_cases g1 : (ys.map fun y => (y - ys.sum / ys.length) ^ 2).sum > eps
    · rw [if_pos g1]
      by_cases g2 : m > n
      · rw [if_pos g2, if_pos ⟨g1, g2⟩]
      · rw [if_neg g2, if_neg (by tauto)]
    · rw [if_neg g1, if_neg (by tauto)]
  · simp only [hrk, hlimE]
  · intro hgap
    have hgap : ∀ k < n, w' k = 0 ∨ w' k > SVD.limit m n eps (-1) w' := fun k hk => by
      rw [hlimE, hπw, hπw]
      exact (hgap _ ((hπ k).2 hk)).imp id fun h => h _ ((hπ 0).2 hn0)
    have e : ∀ z, SVD.resid2 m n (SVD.cutoff n U' w' V' (SVD.limit m n eps (-1) w')) Y z = SVD.resid2 m n (designOf xs basis) Y z :=
      fun z => SVD.resid2_congr (fun i hi j hj => SVD.cutoff_eq h3 _ hgap hi hj) Y z
    have hleast := fun z => ((h3.cut (SVD.limit m n eps (-1) w')).least Y z)
    simp only [e] at hleast
    refine ⟨fun z => ?_, fun z hz => ?_⟩
    · rw [hres, hres]; exact (hleast z).1
    · rw [hres, hres] at hz; exact ((hleast z).2 hz).1

theorem sumSqGen_nonneg (pts : List (ℝ × ℝ)) (basis : List (ℝ → ℝ)) (c : ℕ → ℝ) : 0 ≤ sumSqGen pts basis c :=
  List.sum_nonneg fun x hx => by
    obtain ⟨p, -, rfl⟩ := List.mem_map.1 hx
    exact sq_nonneg _

/-- **C109.**  Data that are a combination of the functions are reproduced: the fitted function passes through all the points, and
the norm of the residual is zero. -/
theorem generalFit_exact (eps : ℝ) (he : 0 < eps) (dec : Dense ℝ → Outcome SVD.Fac) (xs : List ℝ) (basis : List (ℝ → ℝ))
    (hb : basis ≠ []) (hle : basis.length ≤ xs.length) (w : ℕ → ℝ) (hdec : Decomposes dec xs basis w)
    (hgap : Gap eps xs.length basis.length w) (z : ℕ → ℝ) :
    ∃ g, generalFit eps dec xs (xs.map fun x => ∑ j ∈ range basis.length, z j * basis.getD j 0 x) basis = .ret g ∧ g.norm = 0 ∧
      ∀ x ∈ xs, evaluate g.coeffs x basis = .ret (∑ j ∈ range basis.length, z j * basis.getD j 0 x) := by
  obtain ⟨g, c, w', h1, h2, -, -, -, -, h3, -, -, -, -, -, -, h4⟩ := generalFit_spec eps he dec xs
    (xs.map fun x => ∑ j ∈ range basis.length, z j * basis.getD j 0 x) basis (by simp) hb hle w hdec
  set F : ℝ → ℝ := fun x => ∑ j ∈ range basis.length, z j * basis.getD j 0 x with hF
  have hp : points xs (xs.map F) = xs.map fun x => (x, F x) := by
    rw [points]
    clear * -
    induction xs with
    | nil => rfl
    | cons a t ih => simp [ih]
  have hz : sumSqGen (points xs (xs.map F)) basis z = 0 := by
    rw [sumSqGen, hp, List.map_map]
    refine List.sum_eq_zero fun x hx => ?_
    obtain ⟨y, -, rfl⟩ := List.mem_map.1 hx
    simp [hF]
  have hc0 : sumSqGen (points xs (xs.map F)) basis c = 0 := le_antisymm (hz ▸ (h4 hgap).1 z) (sumSqGen_nonneg _ _ _)
  refine ⟨g, h1, by rw [h3, hc0, Real.sqrt_zero], fun x hx => ?_⟩
  have hlen : g.coeffs.length = basis.length := by rw [h2, length_tab]
  rw [(evaluate_spec _ _ _).1 hlen, hlen]
  congr 1
  have e : ∑ j ∈ range basis.length, g.coeffs.getD j 0 * basis.getD j 0 x = ∑ j ∈ range basis.length, c j * basis.getD j 0 x :=
    Finset.sum_congr rfl fun j hj => by rw [h2, getD_tab _ _ _ (mem_range.1 hj)]
  rw [e]
  rw [sumSqGen, hp, List.map_map] at hc0
  have := List.all_zero_of_le_zero_le_of_sum_eq_zero (l := xs.map _) (fun y hy => by
    obtain ⟨x, -, rfl⟩ := List.mem_map.1 hy
    exact sq_nonneg _) hc0 (List.mem_map.2 ⟨x, hx, rfl⟩)
  simp only [Function.comp] at this
  have := pow_eq_zero_iff two_ne_zero |>.1 this
  rw [sub_eq_zero] at this
  exact this.symm

/-- **C109.**  The coefficient of determination is at most 1; if the constants are combinations of the functions it is not
negative. -/
theorem generalFit_r2 (eps : ℝ) (he : 0 < eps) (dec : Dense ℝ → Outcome SVD.Fac) (xs ys : List ℝ) (basis : List (ℝ → ℝ))
    (hl : xs.length = ys.length) (hb : basis ≠ []) (hle : basis.length ≤ xs.length) (w : ℕ → ℝ)
    (hdec : Decomposes dec xs basis w) (g : GenFit) (hg : generalFit eps dec xs ys basis = .ret g) :
    g.r2 ≤ 1 ∧ (Gap eps xs.length basis.length w → (∃ z : ℕ → ℝ, ∀ x, ∑ j ∈ range basis.length, z j * basis.getD j 0 x = 1) →
      0 ≤ g.r2) := by
  obtain ⟨g', c, w', h1, h2, -, -, -, -, h3, -, h5, -, -, -, -, h4⟩ := generalFit_spec eps he dec xs ys basis hl hb hle w hdec
  obtain rfl := Outcome.ret.inj (h1.symm.trans hg)
  have h0 := sumSqGen_nonneg (points xs ys) basis c
  rw [h5]
  constructor
  · split_ifs with g1 g2
    · have := div_nonneg h0 (lt_trans he g1).le
      linarith
    · exact le_rfl
    · norm_num
  · rintro hgap ⟨z, hz⟩
    split_ifs with g1 g2
    · have hpos := lt_trans he g1
      rw [sub_nonneg, div_le_one hpos]
      refine ((h4 hgap).1 fun j => (ys.sum / ys.length) * z j).trans (le_of_eq ?_)
      obtain ⟨X, Y, hX, hY⟩ := exists_tabs xs ys hl
      generalize ys.sum / ys.length = μ
      have e : ∀ x, ∑ j ∈ range basis.length, μ * z j * basis.getD j 0 x = μ := fun x => by
        simp only [mul_assoc]
        rw [← Finset.mul_sum, hz, mul_one]
      simp only [sumSqGen, e]
      generalize xs.length = n at hX hY
      rw [hX, hY, points, zip_tab, map_tab, map_tab]
    · norm_num
    · norm_num

/-! ## Polynomials -/

open Polynomial in
/-- The sum of the squared residuals of a polynomial. -/
noncomputable def sumSqPoly (pts : List (ℝ × ℝ)) (P : Polynomial ℝ) : ℝ := (pts.map fun p => (p.2 - P.eval p.1) ^ 2).sum

/-- **C109.**  A negative degree is refused, and so are a degree without enough points, no data and sequences of different
lengths. -/
theorem polyFit_refused (eps : ℝ) (dec : Dense ℝ → Outcome SVD.Fac) (xs ys : List ℝ) (degree : ℤ)
    (h : degree < 0 ∨ xs.length ≠ ys.length ∨ xs.length ≤ degree) :
    polyFit eps dec xs ys degree = .exn (.mml "CurveFittingError") := by
  rw [polyFit]
  by_cases hd : degree < 0
  · rw [if_pos hd]; rfl
  · rw [if_neg hd]
    refine generalFit_refused _ _ _ _ _ ?_
    rcases h with h | h | h
    · exact absurd h hd
    · exact Or.inl h
    · refine Or.inr (Or.inr (Or.inr ?_))
      rw [length_tab]
      omega

theorem monomial_eq (k : ℕ) (x : ℝ) : monomial k x = x ^ k := by
  rw [monomial]
  by_cases h : k = 0
  · rw [if_pos h, h, pow_zero]
  · rw [if_neg h]

/-- **C109.**  `PolynomialFit` of degree `d` returns the coefficients, lowest first, of a polynomial `Q` of degree at most `d` that
minimises the residual sum of squares among all these polynomials, and both ways to evaluate the fit give `Q`; if the data lie on a
polynomial of degree at most `d` and there are more than `d` different points, `Q` is that polynomial. -/
theorem polyFit_spec (eps : ℝ) (he : 0 < eps) (dec : Dense ℝ → Outcome SVD.Fac) (xs ys : List ℝ) (d : ℕ)
    (hl : xs.length = ys.length) (hle : d < xs.length) (w : ℕ → ℝ)
    (hdec : Decomposes dec xs (tab (d + 1) fun k x => x ^ k) w) (hgap : Gap eps xs.length (d + 1) w) :
    ∃ g Q, polyFit eps dec xs ys d = .ret g ∧ Q.natDegree ≤ d ∧ g.coeffs = tab (d + 1) Q.coeff ∧
      (∀ x, evaluate g.coeffs x (tab (d + 1) fun k x => x ^ k) = .ret (Q.eval x)) ∧ (∀ x, evalPoly x g.coeffs = .ret (Q.eval x)) ∧
      g.norm = Real.sqrt (sumSqPoly (points xs ys) Q) ∧
      (∀ P : Polynomial ℝ, P.natDegree ≤ d → sumSqPoly (points xs ys) Q ≤ sumSqPoly (points xs ys) P) ∧
      (∀ P : Polynomial ℝ, P.natDegree ≤ d → ys = xs.map P.eval → d < xs.toFinset.card → Q = P) := by
  have hlen : (tab (d + 1) fun (k : ℕ) (x : ℝ) => x ^ k).length = d + 1 := length_tab _ _
  have hbas : tab (d + 1) monomial = tab (d + 1) fun (k : ℕ) (x : ℝ) => x ^ k :=
    tab_congr fun k _ => funext fun x => monomial_eq k x
  obtain ⟨g, c, w', h1, h2, -, -, -, -, h3, -, -, -, -, -, -, h4⟩ := generalFit_spec eps he dec xs ys
    (tab (d + 1) fun k x => x ^ k) hl (by intro h; simpa [h] using hlen) (by rw [hlen]; omega) w hdec
  rw [hlen] at h2 h4
  have h4 := (h4 hgap).1
  set Q : Polynomial ℝ := ∑ j ∈ range (d + 1), Polynomial.monomial j (c j) with hQ
  have hQc : ∀ j < d + 1, Q.coeff j = c j := fun j hj => by
    rw [hQ, Polynomial.finsetSum_coeff]
    simp [Polynomial.coeff_monomial, hj]
  have hQd : Q.natDegree ≤ d := by
    refine Polynomial.natDegree_sum_le_of_forall_le _ _ fun j hj => ?_
    have := mem_range.1 hj
    exact (Polynomial.natDegree_monomial_le _).trans (by omega)
  have hev : ∀ (P : Polynomial ℝ), P.natDegree ≤ d → ∀ x, P.eval x = ∑ j ∈ range (d + 1), P.coeff j * x ^ j := fun P hP x =>
    Polynomial.eval_eq_sum_range' (by omega) x
  have hQe : ∀ x, Q.eval x = ∑ j ∈ range (d + 1), c j * x ^ j := fun x => by
    rw [hev Q hQd]
    exact Finset.sum_congr rfl fun j hj => by rw [hQc j (mem_range.1 hj)]
  have hss : ∀ z, ∀ P : Polynomial ℝ, (∀ x, P.eval x = ∑ j ∈ range (d + 1), z j * x ^ j) →
      sumSqGen (points xs ys) (tab (d + 1) fun k x => x ^ k) z = sumSqPoly (points xs ys) P := fun z P hP => by
    rw [sumSqGen, sumSqPoly, hlen]
    congr 1
    refine List.map_congr_left fun p _ => ?_
    rw [hP]
    congr 2
    exact Finset.sum_congr rfl fun j hj => by rw [getD_tab _ _ _ (mem_range.1 hj)]
  have hbest : ∀ P : Polynomial ℝ, P.natDegree ≤ d → sumSqPoly (points xs ys) Q ≤ sumSqPoly (points xs ys) P := fun P hP => by
    rw [← hss c Q hQe, ← hss P.coeff P (hev P hP)]
    exact h4 _
  refine ⟨g, Q, ?_, hQd, ?_, fun x => ?_, fun x => ?_, ?_, hbest, fun P hP hy hcard => ?_⟩
  · rw [polyFit, if_neg (by omega), Int.toNat_natCast, hbas, h1]
  · rw [h2]
    exact tab_congr fun j hj => (hQc j hj).symm
  · rw [h2, (evaluate_spec _ _ _).1 (by rw [length_tab, length_tab]), length_tab, hQe]
    congr 1
    exact Finset.sum_congr rfl fun j hj => by rw [getD_tab _ _ _ (mem_range.1 hj), getD_tab _ _ _ (mem_range.1 hj)]
  · rw [h2, evalPoly_spec, length_tab, hQe]
    congr 1
    exact Finset.sum_congr rfl fun j hj => by rw [getD_tab _ _ _ (mem_range.1 hj)]
  · rw [h3, hss c Q hQe]
  · have hp : points xs ys = xs.map fun x => (x, P.eval x) := by
      rw [points, hy]
      clear * -
      induction xs with
      | nil => rfl
      | cons a t ih => simp [ih]
    have hz : sumSqPoly (points xs ys) P = 0 := by
      rw [sumSqPoly, hp, List.map_map]
      refine List.sum_eq_zero fun x hx => ?_
      obtain ⟨y, -, rfl⟩ := List.mem_map.1 hx
      simp
    have hnn : ∀ y ∈ (points xs ys).map (fun p => (p.2 - Q.eval p.1) ^ 2), (0 : ℝ) ≤ y := fun y hy => by
      obtain ⟨x, -, rfl⟩ := List.mem_map.1 hy
      exact sq_nonneg _
    have hq0 : sumSqPoly (points xs ys) Q = 0 := le_antisymm (hz ▸ hbest P hP) (List.sum_nonneg hnn)
    refine Polynomial.eq_of_degree_sub_lt_of_eval_finset_eq xs.toFinset ?_ fun x hx => ?_
    · refine lt_of_le_of_lt Polynomial.degree_le_natDegree ?_
      have := Polynomial.natDegree_sub_le Q P
      exact_mod_cast lt_of_le_of_lt (this.trans (max_le hQd hP)) hcard
    · have hx := List.mem_toFinset.1 hx
      have hm : (P.eval x - Q.eval x) ^ 2 ∈ (points xs ys).map (fun p => (p.2 - Q.eval p.1) ^ 2) := by
        rw [hp, List.map_map]
        exact List.mem_map.2 ⟨x, hx, rfl⟩
      have := List.all_zero_of_le_zero_le_of_sum_eq_zero hnn hq0 hm
      have := pow_eq_zero_iff two_ne_zero |>.1 this
      linarith

/-- **C109.**  The detailed versions without propagation never throw: they report success with the fit, or the status for invalid
input if the request is malformed; with propagation the exceptions are those of the fit. -/
theorem detailed_spec (eps : ℝ) (dec : Dense ℝ → Outcome SVD.Fac) (xs ys : List ℝ) (basis : List (ℝ → ℝ)) (degree : ℤ) :
    (∀ g p, generalFit eps dec xs ys basis = .ret g → generalFitDetailed eps dec p xs ys basis = .ret (.success, some g)) ∧
    ((xs.length ≠ ys.length ∨ xs = [] ∨ basis = [] ∨ xs.length < basis.length) →
      generalFitDetailed eps dec false xs ys basis = .ret (.invalidInput, none)) ∧
    (∀ e, generalFit eps dec xs ys basis = .exn e → generalFitDetailed eps dec true xs ys basis = .exn e) ∧
    (∀ e, generalFitDetailed eps dec false xs ys basis ≠ .exn e) ∧
    (∀ g p, polyFit eps dec xs ys degree = .ret g → polyFitDetailed eps dec p xs ys degree = .ret (.success, some g)) ∧
    ((degree < 0 ∨ xs.length ≠ ys.length ∨ xs.length ≤ degree) →
      polyFitDetailed eps dec false xs ys degree = .ret (.invalidInput, none)) ∧
    (∀ e, polyFit eps dec xs ys degree = .exn e → polyFitDetailed eps dec true xs ys degree = .exn e) ∧
    (∀ e, polyFitDetailed eps dec false xs ys degree ≠ .exn e) := by
  refine ⟨fun g p h => ?_, fun h => ?_, fun e h => ?_, fun e => ?_, fun g p h => ?_, fun h => ?_, fun e h => ?_, fun e => ?_⟩
  · rw [generalFitDetailed, h]; rfl
  · rw [generalFitDetailed, generalFit_refused _ _ _ _ _ h]; rfl
  · rw [generalFitDetailed, h]; rfl
  · rw [generalFitDetailed]
    cases generalFit eps dec xs ys basis <;> simp [execute]
  · rw [polyFitDetailed, h]; rfl
  · rw [polyFitDetailed, polyFit_refused _ _ _ _ _ h]; rfl
  · rw [polyFitDetailed, h]; rfl
  · rw [polyFitDetailed]
    cases polyFit eps dec xs ys degree <;> simp [execute]

/-! ## A concrete case, and a negative coefficient of determination -/

/-- The decomposition of the design matrix of the one function `x` at 1, -1, 1, -1: `U = ±1/2`, `w = 2`, `V = 1`. -/
noncomputable def exDec (_ : Dense ℝ) : Outcome SVD.Fac :=
  .ret ⟨Dense.ofFn 4 1 fun i _ => if i % 2 = 0 then 1 / 2 else -1 / 2, tab 1 fun _ => 2, Dense.ofFn 1 1 fun _ _ => 1⟩

theorem exDec_ok : Decomposes exDec [1, -1, 1, -1] [fun x => x] fun _ => 2 := by
  have h1 : Dense.Shape 4 1 := by simp [Dense.Shape]
  have h2 : Dense.Shape 1 1 := by simp [Dense.Shape]
  refine ⟨h1, _, _, _, rfl, ⟨Dense.is_ofFn h1 _, rfl, Dense.is_ofFn h2 _⟩, ⟨?_, ?_, ?_, ?_⟩⟩
  · intro j hj k hk _ _
    obtain rfl : j = 0 := by simpa using hj
    obtain rfl : k = 0 := by simpa using hk
    norm_num [Finset.sum_range_succ]
  · intro j hj k hk
    obtain rfl : j = 0 := by simpa using hj
    obtain rfl : k = 0 := by simpa using hk
    norm_num
  · intro j _; norm_num
  · intro i hi j hj
    obtain rfl : j = 0 := by simpa using hj
    have hi : i < 4 := hi
    interval_cases i <;> norm_num [designOf]

theorem exDec_gap : Gap (1 / 2 ^ 52) 4 1 fun _ => 2 := by
  intro k _
  right
  intro l _
  have : Real.sqrt 6 ≤ 3 := by
    rw [Real.sqrt_le_left (by norm_num)]; norm_num
  norm_num
  nlinarith

example := generalFit_exact (1 / 2 ^ 52) (by norm_num) exDec [1, -1, 1, -1] [fun x => x] (by simp) (by simp) _ exDec_ok exDec_gap
  fun _ => 3

/-- **C109.**  The coefficient of determination is documented as a number from 0 to 1, but if the constants are not among the
functions it can be negative: `-440` for the function `x` and the data (1, 10), (-1, 11), (1, 10), (-1, 11). -/
theorem generalFit_r2_wrong : ∃ g, generalFit (1 / 2 ^ 52) exDec [1, -1, 1, -1] [10, 11, 10, 11] [fun x => x] = .ret g ∧
    g.r2 ≤ -440 := by
  obtain ⟨g, c, w', h1, h2, -, -, -, -, h3, -, h5, -, -, -, -, h4⟩ := generalFit_spec (1 / 2 ^ 52) (by norm_num) exDec
    [1, -1, 1, -1] [10, 11, 10, 11] [fun x => x] rfl (by simp) (by simp) _ exDec_ok
  refine ⟨g, h1, ?_⟩
  rw [h5]
  have e : sumSqGen (points [1, -1, 1, -1] [10, 11, 10, 11]) [fun x => x] c = 2 * (10 - c 0) ^ 2 + 2 * (11 + c 0) ^ 2 := by
    simp [sumSqGen, points]; ring
  rw [e]
  norm_num
  nlinarith [sq_nonneg (2 * c 0 + 1)]

/-- The decomposition of the design matrix of the constant at any four points. -/
noncomputable def exDec0 (_ : Dense ℝ) : Outcome SVD.Fac :=
  .ret ⟨Dense.ofFn 4 1 fun _ _ => 1 / 2, tab 1 fun _ => 2, Dense.ofFn 1 1 fun _ _ => 1⟩

example : ∃ g Q, polyFit (1 / 2 ^ 52) exDec0 [1, 2, 3, 4] [5, 7, 6, 9] (0 : ℕ) = .ret g ∧ Q.natDegree ≤ 0 ∧
    (∀ P : Polynomial ℝ, P.natDegree ≤ 0 → sumSqPoly (points [1, 2, 3, 4] [5, 7, 6, 9]) Q ≤ sumSqPoly (points [1, 2, 3, 4] [5, 7, 6, 9]) P) := by
  have h1 : Dense.Shape 4 1 := by simp [Dense.Shape]
  have h2 : Dense.Shape 1 1 := by simp [Dense.Shape]
  obtain ⟨g, Q, a, b, -, -, -, -, c, -⟩ := polyFit_spec (1 / 2 ^ 52) (by norm_num) exDec0 [1, 2, 3, 4] [5, 7, 6, 9] 0 rfl (by simp)
    (fun _ => 2) (by
      refine ⟨h1, _, _, _, rfl, ⟨Dense.is_ofFn h1 _, rfl, Dense.is_ofFn h2 _⟩, ⟨?_, ?_, ?_, ?_⟩⟩
      · intro j hj k hk _ _
        obtain rfl : j = 0 := by simpa using hj
        obtain rfl : k = 0 := by simpa using hk
        norm_num [Finset.sum_range_succ]
      · intro j hj k hk
        obtain rfl : j = 0 := by simpa using hj
        obtain rfl : k = 0 := by simpa using hk
        simp [tab]
      · intro j _; norm_num
      · intro i hi j hj
        obtain rfl : j = 0 := by simpa using hj
        simp [designOf, tab]) exDec_gap
  exact ⟨g, Q, a, b, c⟩

end Verif.Fit
