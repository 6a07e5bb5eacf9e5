import Verif.Interp.SplineBasis
import Verif.Mat.DenseLemmas

/-!
# C86: bilinear interpolation on a grid
-/

set_option autoImplicit false

namespace Verif.Interp

open Verif Finset

variable {σ : ℝ} {n : ℕ} {x : ℕ → ℝ}

/-- The value of the bilinear function on the rectangle with the corners `(a0, b0)` and `(a1, b1)` that has the values `z00` at
`(a0, b0)`, `z10` at `(a1, b0)`, `z01` at `(a0, b1)` and `z11` at `(a1, b1)`: straight lines along `b` at both ends, joined by a straight line
along `a`. -/
noncomputable def bilinearThrough (a0 a1 b0 b1 z00 z10 z01 z11 a b : ℝ) : ℝ :=
  lineThrough a0 (lineThrough b0 z00 b1 z01 b) a1 (lineThrough b0 z10 b1 z11 b) a

theorem locate2_cell (hx : Ordered σ n x) (hn : 2 ≤ n) (a : ℝ) : ∃ i, locate2 (tab n x) a = .ret i ∧ Cell σ n x a i := by
  have hc := search_cell hx hn a
  refine ⟨_, by rw [locate2, if_neg (by simp only [length_tab]; omega)], ?_⟩
  rw [length_tab, min_eq_right (by have := hc.lt; omega)]
  exact hc

theorem unitCoord_eq (hx : Ordered σ n x) {i : ℕ} (hi : i + 1 < n) (a : ℝ) :
    unitCoord (tab n x) i a = .ret (x (i + 1) - x i, (a - x i) / (x (i + 1) - x i)) := by
  have := hx.ne (Nat.lt_succ_self i) hi
  rw [unitCoord, index_tab x hi, Outcome.bind_ret, index_tab x (by omega), Outcome.bind_ret, if_pos (sub_ne_zero.mpr this.symm)]

theorem corners_eq {m n : ℕ} (x1 x2 : List ℝ) (z : ℕ → ℕ → ℝ) {i j : ℕ} (hi : i + 1 < m) (hj : j + 1 < n) :
    Bilinear.corners ⟨x1, x2, Mat.Dense.ofFn m n z⟩ i j = .ret ⟨z i j, z (i + 1) j, z i (j + 1), z (i + 1) (j + 1)⟩ := by
  rw [Bilinear.corners]
  dsimp only
  rw [Mat.Dense.get_ofFn z (by omega) (by omega), Outcome.bind_ret, Mat.Dense.get_ofFn z hi (by omega), Outcome.bind_ret,
    Mat.Dense.get_ofFn z (by omega) hj, Outcome.bind_ret, Mat.Dense.get_ofFn z hi hj, Outcome.bind_ret]

theorem blend_eq {a0 a1 b0 b1 : ℝ} (ha : a0 ≠ a1) (hb : b0 ≠ b1) (c : Corners) (a b : ℝ) :
    c.blend ((a - a0) / (a1 - a0)) ((b - b0) / (b1 - b0)) = bilinearThrough a0 a1 b0 b1 c.c00 c.c10 c.c01 c.c11 a b := by
  have h1 := sub_ne_zero.mpr ha.symm
  have h2 := sub_ne_zero.mpr hb.symm
  rw [Corners.blend, bilinearThrough, lineThrough, lineThrough, lineThrough]
  field_simp
  ring

/-- The broken line through a table. -/
noncomputable def brokenLine (n : ℕ) (x y : ℕ → ℝ) (a : ℝ) : ℝ :=
  lineThrough (x (search (tab n x) a)) (y (search (tab n x) a)) (x (search (tab n x) a + 1)) (y (search (tab n x) a + 1)) a

theorem brokenLine_pieces (hx : Ordered σ n x) (hn : 2 ≤ n) (y : ℕ → ℝ) :
    Pieces σ n x (brokenLine n x y) fun i a => lineThrough (x i) (y i) (x (i + 1)) (y (i + 1)) a := by
  refine Pieces.of_loc hx (search (tab n x)) (fun a => search_cell hx hn a) (fun _ => rfl) fun k hk => ?_
  rw [lineThrough_right (hx.ne (Nat.lt_succ_self k) (by omega)), lineThrough_left (hx.ne (Nat.lt_succ_self (k + 1)) hk)]

theorem brokenLine_continuous (hx : Ordered σ n x) (hn : 2 ≤ n) (y : ℕ → ℝ) : Continuous (brokenLine n x y) := by
  rw [continuous_iff_continuousAt]
  intro a
  refine (brokenLine_pieces hx hn y).continuousAt fun i _ => ?_
  simp only [lineThrough]
  fun_prop

theorem brokenLine_linear (hx : Ordered σ n x) (hn : 2 ≤ n) (y : ℕ → ℝ) (a : ℝ) :
    brokenLine n x y a = ∑ k ∈ range n, y k * brokenLine n x (unitAt k) a := by
  have hi := (search_cell hx hn a).lt
  simp only [brokenLine]
  generalize search (tab n x) a = i at *
  rw [lineThrough, ← sum_unitAt n y hi, ← sum_unitAt n y (show i < n by omega), mul_sum, mul_sum, ← sum_add_distrib, sum_div]
  refine sum_congr rfl fun k _ => ?_
  rw [lineThrough]
  ring

theorem knot_cell (hx : Ordered σ n x) (hn : 2 ≤ n) {i : ℕ} (hi : i < n) : ∃ k, Cell σ n x (x i) k ∧ (k = i ∨ k + 1 = i) := by
  by_cases h1 : i + 1 < n
  · have := hx.lt i (i + 1) (by omega) h1
    exact ⟨i, ⟨h1, Or.inr le_rfl, Or.inr this.le⟩, Or.inl rfl⟩
  · obtain ⟨l, rfl⟩ : ∃ l, i = l + 1 := ⟨i - 1, by omega⟩
    have := hx.lt l (l + 1) (by omega) hi
    exact ⟨l, ⟨by omega, Or.inr this.le, Or.inl (by omega)⟩, Or.inr rfl⟩

theorem brokenLine_knot (hx : Ordered σ n x) (hn : 2 ≤ n) (y : ℕ → ℝ) {i : ℕ} (hi : i < n) : brokenLine n x y (x i) = y i := by
  obtain ⟨k, hk, rfl | rfl⟩ := knot_cell hx hn hi
  · rw [(brokenLine_pieces hx hn y).eq _ _ hk, lineThrough_left (hx.ne (Nat.lt_succ_self k) hk.lt)]
  · rw [(brokenLine_pieces hx hn y).eq _ _ hk, lineThrough_right (hx.ne (Nat.lt_succ_self k) hk.lt)]

theorem Cell.between (hx : Ordered σ n x) {i : ℕ} (hi : i + 1 < n) {a : ℝ} (h : Between (x i) a (x (i + 1))) : Cell σ n x a i := by
  obtain ⟨l, rfl⟩ : ∃ l, n = l + 2 := ⟨n - 2, by omega⟩
  exact Cell.of_between hx hi h

section

variable {m : ℕ} {x1 x2 : ℕ → ℝ} {τ : ℝ}

/-- The bilinear interpolant as a function. -/
noncomputable def bil (m n : ℕ) (x1 x2 : ℕ → ℝ) (z : ℕ → ℕ → ℝ) (a b : ℝ) : ℝ := brokenLine m x1 (fun i => brokenLine n x2 (z i) b) a

theorem bil_cell (h1 : Ordered σ m x1) (h2 : Ordered τ n x2) (hm : 2 ≤ m) (hn : 2 ≤ n) (z : ℕ → ℕ → ℝ) {a b : ℝ} {i j : ℕ}
    (hi : Cell σ m x1 a i) (hj : Cell τ n x2 b j) :
    bil m n x1 x2 z a b = bilinearThrough (x1 i) (x1 (i + 1)) (x2 j) (x2 (j + 1)) (z i j) (z (i + 1) j) (z i (j + 1)) (z (i + 1) (j + 1)) a b := by
  rw [bil, (brokenLine_pieces h1 hm _).eq _ _ hi, (brokenLine_pieces h2 hn _).eq _ _ hj, (brokenLine_pieces h2 hn _).eq _ _ hj]
  rfl

/-- What an evaluation does. -/
theorem bil_eval (h1 : Ordered σ m x1) (h2 : Ordered τ n x2) (hm : 2 ≤ m) (hn : 2 ≤ n) (z : ℕ → ℕ → ℝ) (a b : ℝ) :
    ∃ i j, Cell σ m x1 a i ∧ Cell τ n x2 b j ∧
      Bilinear.eval ⟨tab m x1, tab n x2, Mat.Dense.ofFn m n z⟩ a b = .ret (bil m n x1 x2 z a b) ∧
      Bilinear.withDerivs ⟨tab m x1, tab n x2, Mat.Dense.ofFn m n z⟩ a b = .ret (bil m n x1 x2 z a b,
        ((1 - (b - x2 j) / (x2 (j + 1) - x2 j)) * (z (i + 1) j - z i j) +
          (b - x2 j) / (x2 (j + 1) - x2 j) * (z (i + 1) (j + 1) - z i (j + 1))) / (x1 (i + 1) - x1 i),
        ((1 - (a - x1 i) / (x1 (i + 1) - x1 i)) * (z i (j + 1) - z i j) +
          (a - x1 i) / (x1 (i + 1) - x1 i) * (z (i + 1) (j + 1) - z (i + 1) j)) / (x2 (j + 1) - x2 j)) := by
  obtain ⟨i, li, hi⟩ := locate2_cell h1 hm a
  obtain ⟨j, lj, hj⟩ := locate2_cell h2 hn b
  have n1 := h1.ne (Nat.lt_succ_self i) hi.lt
  have n2 := h2.ne (Nat.lt_succ_self j) hj.lt
  refine ⟨i, j, hi, hj, ?_, ?_⟩
  · rw [Bilinear.eval]
    dsimp only
    rw [li, Outcome.bind_ret, lj, Outcome.bind_ret, unitCoord_eq h1 hi.lt, Outcome.bind_ret, unitCoord_eq h2 hj.lt, Outcome.bind_ret,
      corners_eq _ _ z hi.lt hj.lt, Outcome.bind_ret, blend_eq n1 n2, bil_cell h1 h2 hm hn z hi hj]
  · rw [Bilinear.withDerivs]
    dsimp only
    rw [li, Outcome.bind_ret, lj, Outcome.bind_ret, unitCoord_eq h1 hi.lt, Outcome.bind_ret, unitCoord_eq h2 hj.lt, Outcome.bind_ret,
      corners_eq _ _ z hi.lt hj.lt, Outcome.bind_ret, blend_eq n1 n2, bil_cell h1 h2 hm hn z hi hj, Corners.d1, Corners.d2,
      if_pos (sub_ne_zero.mpr n1.symm), if_pos (sub_ne_zero.mpr n2.symm)]

theorem bil_new (m n : ℕ) (x1 x2 : ℕ → ℝ) (z : ℕ → ℕ → ℝ) :
    Bilinear.new (tab m x1) (tab n x2) (Mat.Dense.ofFn m n z) = .ret ⟨tab m x1, tab n x2, Mat.Dense.ofFn m n z⟩ := by
  rw [Bilinear.new, if_neg (by simp)]

end

/-- C86: on a grid with at least two strictly monotone abscissas in each direction the constructor succeeds, the value is defined
everywhere and is a continuous function of two variables that takes the given values at the grid points and is bilinear on every cell. -/
theorem bilinear_spec (m n : ℕ) (hm : 2 ≤ m) (hn : 2 ≤ n) (x1 x2 : ℕ → ℝ) (z : ℕ → ℕ → ℝ) (h1 : Increasing m x1 ∨ Decreasing m x1)
    (h2 : Increasing n x2 ∨ Decreasing n x2) :
    ∃ f, Bilinear.new (tab m x1) (tab n x2) (Mat.Dense.ofFn m n z) = .ret f ∧ ∃ F : ℝ → ℝ → ℝ,
      Continuous (fun p : ℝ × ℝ => F p.1 p.2) ∧ (∀ i < m, ∀ j < n, F (x1 i) (x2 j) = z i j) ∧
      (∀ i j, i + 1 < m → j + 1 < n → ∀ a b, Between (x1 i) a (x1 (i + 1)) → Between (x2 j) b (x2 (j + 1)) →
        F a b = bilinearThrough (x1 i) (x1 (i + 1)) (x2 j) (x2 (j + 1)) (z i j) (z (i + 1) j) (z i (j + 1)) (z (i + 1) (j + 1)) a b) ∧
      ∀ a b, f.eval a b = .ret (F a b) ∧ ∃ d, f.withDerivs a b = .ret (F a b, d) := by
  obtain ⟨σ, hσ⟩ := exists_ordered h1
  obtain ⟨τ, hτ⟩ := exists_ordered h2
  refine ⟨_, bil_new m n x1 x2 z, bil m n x1 x2 z, ?_, ?_, ?_, ?_⟩
  · have : (fun p : ℝ × ℝ => bil m n x1 x2 z p.1 p.2) =
        fun p => ∑ k ∈ range m, brokenLine n x2 (z k) p.2 * brokenLine m x1 (unitAt k) p.1 :=
      funext fun p => brokenLine_linear hσ hm _ _
    rw [this]
    refine continuous_finsetSum _ fun k _ => ?_
    exact ((brokenLine_continuous hτ hn _).comp continuous_snd).mul ((brokenLine_continuous hσ hm _).comp continuous_fst)
  · intro i hi j hj
    rw [bil, brokenLine_knot hσ hm _ hi, brokenLine_knot hτ hn _ hj]
  · intro i j hi hj a b ha hb
    exact bil_cell hσ hτ hm hn z (Cell.between hσ hi ha) (Cell.between hτ hj hb)
  · intro a b
    obtain ⟨i, j, _, _, e1, e2⟩ := bil_eval hσ hτ hm hn z a b
    exact ⟨e1, _, e2⟩

/-- C86: inside a cell the derivatives computed are the partial derivatives of the function computed. -/
theorem bilinear_derivs (m n : ℕ) (x1 x2 : ℕ → ℝ) (z : ℕ → ℕ → ℝ) (h1 : Increasing m x1) (h2 : Increasing n x2)
    (f : Bilinear) (hf : Bilinear.new (tab m x1) (tab n x2) (Mat.Dense.ofFn m n z) = .ret f) (F : ℝ → ℝ → ℝ)
    (hF : ∀ a b, f.eval a b = .ret (F a b)) (i j : ℕ) (hi : i + 1 < m) (hj : j + 1 < n) (a b : ℝ) (ha : x1 i < a ∧ a < x1 (i + 1))
    (hb : x2 j < b ∧ b < x2 (j + 1)) :
    ∃ d1 d2, f.withDerivs a b = .ret (F a b, d1, d2) ∧ HasDerivAt (fun t => F t b) d1 a ∧ HasDerivAt (F a) d2 b := by
  rw [bil_new] at hf
  cases hf
  have hm : 2 ≤ m := by omega
  have hn : 2 ≤ n := by omega
  have o1 := h1.ordered
  have o2 := h2.ordered
  have hFb : ∀ a b, F a b = bil m n x1 x2 z a b := by
    intro a b
    obtain ⟨_, _, _, _, e1, _⟩ := bil_eval o1 o2 hm hn z a b
    rw [hF] at e1
    exact Outcome.ret.inj e1
  have cell1 : ∀ a, x1 i < a → a < x1 (i + 1) → Cell 1 m x1 a i := fun a h h' => Cell.between o1 hi (Or.inl ⟨h.le, h'.le⟩)
  have cell2 : ∀ b, x2 j < b → b < x2 (j + 1) → Cell 1 n x2 b j := fun b h h' => Cell.between o2 hj (Or.inl ⟨h.le, h'.le⟩)
  obtain ⟨i', j', ci, cj, _, e2⟩ := bil_eval o1 o2 hm hn z a b
  have uniq : ∀ (k : ℕ) (y : ℕ → ℝ) (_ : Increasing k y) (p q : ℕ) (c : ℝ), p + 1 < k → y p < c → c < y (p + 1) → Cell 1 k y c q → q = p := by
    intro k y hy p q c hp h h' hq
    rcases Nat.lt_trichotomy q p with hlt | rfl | hgt
    · rcases hq.high with hh | hh
      · omega
      · have : y (q + 1) ≤ y p := by
          rcases Nat.lt_or_ge (q + 1) p with h3 | h3
          · exact (hy _ _ h3 (by omega)).le
          · rw [show q + 1 = p by omega]
        linarith
    · rfl
    · rcases hq.low with hh | hh
      · omega
      · have : y (p + 1) ≤ y q := by
          rcases Nat.lt_or_ge (p + 1) q with h3 | h3
          · exact (hy _ _ h3 (by have := hq.lt; omega)).le
          · rw [show p + 1 = q by omega]
        linarith
  obtain rfl := uniq m x1 h1 i i' a hi ha.1 ha.2 ci
  obtain rfl := uniq n x2 h2 j j' b hj hb.1 hb.2 cj
  have n1 : x1 (i' + 1) - x1 i' ≠ 0 := sub_ne_zero.mpr (o1.ne (Nat.lt_succ_self i') hi).symm
  have n2 : x2 (j' + 1) - x2 j' ≠ 0 := sub_ne_zero.mpr (o2.ne (Nat.lt_succ_self j') hj).symm
  have lineD : ∀ u0 v0 u1 v1 t : ℝ, HasDerivAt (lineThrough u0 v0 u1 v1) ((v1 - v0) / (u1 - u0)) t := by
    intro u0 v0 u1 v1 t
    have h := ((((hasDerivAt_id t).const_sub u1).mul_const v0).add (((hasDerivAt_id t).sub_const u0).mul_const v1)).div_const (u1 - u0)
    refine h.congr_deriv ?_
    ring
  refine ⟨_, _, e2.trans (by rw [hFb]), ?_, ?_⟩
  · have : (fun t => F t b) =ᶠ[nhds a] fun t => lineThrough (x1 i') (lineThrough (x2 j') (z i' j') (x2 (j' + 1)) (z i' (j' + 1)) b) (x1 (i' + 1))
        (lineThrough (x2 j') (z (i' + 1) j') (x2 (j' + 1)) (z (i' + 1) (j' + 1)) b) t := by
      filter_upwards [isOpen_Ioo.mem_nhds ⟨ha.1, ha.2⟩] with t ht
      rw [hFb, bil_cell o1 o2 hm hn z (cell1 t ht.1 ht.2) cj, bilinearThrough]
    refine HasDerivAt.congr_of_eventuallyEq ((lineD _ _ _ _ a).congr_deriv ?_) this
    simp only [lineThrough]
    field_simp
    ring
  · have : F a =ᶠ[nhds b] fun t => lineThrough (x2 j') (lineThrough (x1 i') (z i' j') (x1 (i' + 1)) (z (i' + 1) j') a) (x2 (j' + 1))
        (lineThrough (x1 i') (z i' (j' + 1)) (x1 (i' + 1)) (z (i' + 1) (j' + 1)) a) t := by
      filter_upwards [isOpen_Ioo.mem_nhds ⟨hb.1, hb.2⟩] with t ht
      rw [hFb, bil_cell o1 o2 hm hn z ci (cell2 t ht.1 ht.2), bilinearThrough]
      simp only [lineThrough]
      field_simp
      ring
    refine HasDerivAt.congr_of_eventuallyEq ((lineD _ _ _ _ b).congr_deriv ?_) this
    simp only [lineThrough]
    field_simp
    ring

/-- C86: in a cell the value lies between the smallest and the largest of the four corner values. -/
theorem bilinear_between (m n : ℕ) (x1 x2 : ℕ → ℝ) (z : ℕ → ℕ → ℝ) (h1 : Increasing m x1) (h2 : Increasing n x2)
    (f : Bilinear) (hf : Bilinear.new (tab m x1) (tab n x2) (Mat.Dense.ofFn m n z) = .ret f) (i j : ℕ) (hi : i + 1 < m) (hj : j + 1 < n)
    (a b : ℝ) (ha : x1 i ≤ a ∧ a ≤ x1 (i + 1)) (hb : x2 j ≤ b ∧ b ≤ x2 (j + 1)) :
    ∃ v, f.eval a b = .ret v ∧ min (min (z i j) (z i (j + 1))) (min (z (i + 1) j) (z (i + 1) (j + 1))) ≤ v ∧
      v ≤ max (max (z i j) (z i (j + 1))) (max (z (i + 1) j) (z (i + 1) (j + 1))) := by
  rw [bil_new] at hf
  cases hf
  have o1 := h1.ordered
  have o2 := h2.ordered
  obtain ⟨_, _, _, _, e1, _⟩ := bil_eval o1 o2 (by omega) (by omega) z a b
  refine ⟨_, e1, ?_⟩
  rw [bil_cell o1 o2 (by omega) (by omega) z (Cell.between o1 hi (Or.inl ha)) (Cell.between o2 hj (Or.inl hb)), bilinearThrough]
  have w1 := lineThrough_between (y0 := z i j) (y1 := z i (j + 1)) (h2 j (j + 1) (by omega) hj) hb.1 hb.2
  have w2 := lineThrough_between (y0 := z (i + 1) j) (y1 := z (i + 1) (j + 1)) (h2 j (j + 1) (by omega) hj) hb.1 hb.2
  have w3 := lineThrough_between (y0 := lineThrough (x2 j) (z i j) (x2 (j + 1)) (z i (j + 1)) b)
    (y1 := lineThrough (x2 j) (z (i + 1) j) (x2 (j + 1)) (z (i + 1) (j + 1)) b) (h1 i (i + 1) (by omega) hi) ha.1 ha.2
  exact ⟨(min_le_min w1.1 w2.1).trans w3.1, w3.2.trans (max_le_max w1.2 w2.2)⟩

/-- The error of one straight line. -/
theorem lineThrough_error {u v : ℝ} (huv : u < v) (g : ℝ → ℝ) (hg : ContDiffOn ℝ 2 g (Set.Icc u v)) (M : ℝ)
    (hM : ∀ ξ ∈ Set.Icc u v, |iteratedDerivWithin 2 g (Set.Icc u v) ξ| ≤ M) {t : ℝ} (ht : t ∈ Set.Icc u v) :
    |g t - lineThrough u (g u) v (g v) t| ≤ M * (v - u) ^ 2 / 8 := by
  have hx : Increasing 2 fun i => if i = 0 then u else v := by
    intro i j hij hj
    obtain rfl : j = 1 := by omega
    obtain rfl : i = 0 := by omega
    simpa using huv
  have hnew := linear_new 2 le_rfl (fun i => if i = 0 then u else v) (fun i => g (if i = 0 then u else v)) hx.ordered.distinct true
  obtain ⟨w, hw, he⟩ := linear_error 2 (fun i => if i = 0 then u else v) g hx true _ hnew 0 (by norm_num) (by simpa using hg) M
    (by simpa using hM) t (by simpa using ht)
  have := linear_between 2 (fun i => if i = 0 then u else v) (fun i => g (if i = 0 then u else v)) hx true _ hnew 0 (by norm_num) t
    (by simpa using ht.1) (by simpa using ht.2)
  rw [hw] at this
  cases this
  simpa using he

/-- C86: the error for the values of a function `g` on a cell is at most an eighth of the second derivative times the square of the width,
added over both directions.  The second derivative along `x2` is needed only on the two sides of the cell. -/
theorem bilinear_error (m n : ℕ) (x1 x2 : ℕ → ℝ) (g : ℝ → ℝ → ℝ) (h1 : Increasing m x1) (h2 : Increasing n x2)
    (f : Bilinear) (hf : Bilinear.new (tab m x1) (tab n x2) (Mat.Dense.ofFn m n fun i j => g (x1 i) (x2 j)) = .ret f) (i j : ℕ)
    (hi : i + 1 < m) (hj : j + 1 < n) (a b : ℝ) (ha : a ∈ Set.Icc (x1 i) (x1 (i + 1))) (hb : b ∈ Set.Icc (x2 j) (x2 (j + 1))) (M1 M2 : ℝ)
    (hg1 : ContDiffOn ℝ 2 (fun t => g t b) (Set.Icc (x1 i) (x1 (i + 1))))
    (hM1 : ∀ ξ ∈ Set.Icc (x1 i) (x1 (i + 1)), |iteratedDerivWithin 2 (fun t => g t b) (Set.Icc (x1 i) (x1 (i + 1))) ξ| ≤ M1)
    (hg2 : ∀ k, k = i ∨ k = i + 1 → ContDiffOn ℝ 2 (g (x1 k)) (Set.Icc (x2 j) (x2 (j + 1))))
    (hM2 : ∀ k, k = i ∨ k = i + 1 → ∀ ξ ∈ Set.Icc (x2 j) (x2 (j + 1)),
      |iteratedDerivWithin 2 (g (x1 k)) (Set.Icc (x2 j) (x2 (j + 1))) ξ| ≤ M2) :
    ∃ v, f.eval a b = .ret v ∧ |g a b - v| ≤ M1 * (x1 (i + 1) - x1 i) ^ 2 / 8 + M2 * (x2 (j + 1) - x2 j) ^ 2 / 8 := by
  rw [bil_new] at hf
  cases hf
  have o1 := h1.ordered
  have o2 := h2.ordered
  obtain ⟨_, _, _, _, e1, _⟩ := bil_eval o1 o2 (by omega) (by omega) (fun i j => g (x1 i) (x2 j)) a b
  refine ⟨_, e1, ?_⟩
  have l1 := h1 i (i + 1) (by omega) hi
  have l2 := h2 j (j + 1) (by omega) hj
  rw [bil_cell o1 o2 (by omega) (by omega) _ (Cell.between o1 hi (Or.inl ha)) (Cell.between o2 hj (Or.inl hb)), bilinearThrough]
  have w1 := lineThrough_error l1 (fun t => g t b) hg1 M1 hM1 ha
  have w2 := lineThrough_error l2 (g (x1 i)) (hg2 i (Or.inl rfl)) M2 (hM2 i (Or.inl rfl)) hb
  have w3 := lineThrough_error l2 (g (x1 (i + 1))) (hg2 (i + 1) (Or.inr rfl)) M2 (hM2 (i + 1) (Or.inr rfl)) hb
  generalize lineThrough (x2 j) (g (x1 i) (x2 j)) (x2 (j + 1)) (g (x1 i) (x2 (j + 1))) b = p at *
  generalize lineThrough (x2 j) (g (x1 (i + 1)) (x2 j)) (x2 (j + 1)) (g (x1 (i + 1)) (x2 (j + 1))) b = q at *
  have e : g a b - lineThrough (x1 i) p (x1 (i + 1)) q a = (g a b - lineThrough (x1 i) (g (x1 i) b) (x1 (i + 1)) (g (x1 (i + 1)) b) a) +
      lineThrough (x1 i) (g (x1 i) b - p) (x1 (i + 1)) (g (x1 (i + 1)) b - q) a := by
    simp only [lineThrough]
    ring
  have w4 := lineThrough_between (y0 := g (x1 i) b - p) (y1 := g (x1 (i + 1)) b - q) l1 ha.1 ha.2
  rw [abs_le] at w2 w3
  have w5 : |lineThrough (x1 i) (g (x1 i) b - p) (x1 (i + 1)) (g (x1 (i + 1)) b - q) a| ≤ M2 * (x2 (j + 1) - x2 j) ^ 2 / 8 :=
    abs_le.mpr ⟨(le_min w2.1 w3.1).trans w4.1, w4.2.trans (max_le w2.2 w3.2)⟩
  rw [e]
  exact (abs_add_le _ _).trans (add_le_add w1 w5)

/-- C86: functions `p + q x1 + r x2 + s x1 x2` are reproduced everywhere, outside the grid too. -/
theorem bilinear_exact (m n : ℕ) (hm : 2 ≤ m) (hn : 2 ≤ n) (x1 x2 : ℕ → ℝ) (p q r s : ℝ) (h1 : Increasing m x1 ∨ Decreasing m x1)
    (h2 : Increasing n x2 ∨ Decreasing n x2) :
    ∃ f, Bilinear.new (tab m x1) (tab n x2) (Mat.Dense.ofFn m n fun i j => p + q * x1 i + r * x2 j + s * x1 i * x2 j) = .ret f ∧
      ∀ a b, f.withDerivs a b = .ret (p + q * a + r * b + s * a * b, q + s * b, r + s * a) ∧
        f.eval a b = .ret (p + q * a + r * b + s * a * b) := by
  obtain ⟨σ, o1⟩ := exists_ordered h1
  obtain ⟨τ, o2⟩ := exists_ordered h2
  refine ⟨_, bil_new m n x1 x2 _, fun a b => ?_⟩
  obtain ⟨i, j, ci, cj, e1, e2⟩ := bil_eval o1 o2 hm hn (fun i j => p + q * x1 i + r * x2 j + s * x1 i * x2 j) a b
  have n1 : x1 (i + 1) - x1 i ≠ 0 := sub_ne_zero.mpr (o1.ne (Nat.lt_succ_self i) ci.lt).symm
  have n2 : x2 (j + 1) - x2 j ≠ 0 := sub_ne_zero.mpr (o2.ne (Nat.lt_succ_self j) cj.lt).symm
  have hv : bil m n x1 x2 (fun i j => p + q * x1 i + r * x2 j + s * x1 i * x2 j) a b = p + q * a + r * b + s * a * b := by
    rw [bil_cell o1 o2 hm hn _ ci cj, bilinearThrough]
    simp only [lineThrough]
    field_simp
    ring
  rw [e1, e2, hv]
  refine ⟨congrArg Outcome.ret (Prod.ext rfl (Prod.ext ?_ ?_)), rfl⟩
  · dsimp only
    field_simp
    ring
  · dsimp only
    field_simp
    ring

/-- Non-vacuity: a grid with three and two abscissas. -/
example : ∃ f, Bilinear.new (tab 3 fun i => (i : ℝ)) (tab 2 fun i => (i : ℝ)) (Mat.Dense.ofFn 3 2 fun i j => 0 + 0 * (i : ℝ) + 0 * (j : ℝ) + 1 * (i : ℝ) * j) = .ret f ∧
    f.eval (3 / 2) (1 / 2) = .ret (3 / 4) := by
  obtain ⟨f, hf, h⟩ := bilinear_exact 3 2 (by norm_num) (by norm_num) (fun i => (i : ℝ)) (fun i => (i : ℝ)) 0 0 0 1
    (Or.inl fun i j hij _ => Nat.cast_lt.mpr hij) (Or.inl fun i j hij _ => Nat.cast_lt.mpr hij)
  refine ⟨f, hf, ?_⟩
  rw [(h _ _).2]
  norm_num

/-- C86: the constructor refuses a matrix of another shape. -/
theorem bilinear_shape (x1 x2 : List ℝ) (z : Mat.Dense ℝ) (h : z.rows ≠ x1.length ∨ z.cols ≠ x2.length) :
    Bilinear.new x1 x2 z = .exn (.mml "RealFuncInterpInitError") := by
  rw [Bilinear.new, if_pos h]

/-- C86, against expectation: a grid with a single abscissa in the first direction is accepted, and evaluation reads past its end. -/
theorem bilinear_single (x0 : ℝ) (n : ℕ) (hn : 2 ≤ n) (x2 : ℕ → ℝ) (z : ℕ → ℕ → ℝ) :
    ∃ f, Bilinear.new (tab 1 fun _ => x0) (tab n x2) (Mat.Dense.ofFn 1 n z) = .ret f ∧ ∀ a b, f.eval a b = .ub := by
  refine ⟨_, bil_new 1 n _ x2 z, fun a b => ?_⟩
  rw [Bilinear.eval]
  dsimp only
  rw [locate2, if_neg (by simp), Outcome.bind_ret, locate2, if_neg (by simp only [length_tab]; omega), Outcome.bind_ret, length_tab]
  have : Outcome.index (tab 1 fun _ => x0) (min (1 - 2) (search (tab 1 fun _ => x0) a) + 1) = .ub := by
    simp [Outcome.index, getElem?_tab]
  rw [unitCoord, this, Outcome.bind_ub, Outcome.bind_ub]

end Verif.Interp
