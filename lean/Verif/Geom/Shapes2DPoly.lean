import Verif.Geom.Shapes2DProps

/-!
# Properties of regular polygons and quadrilaterals (C124)
-/

set_option autoImplicit false

namespace Verif.Geom.Shp
open CompGeo CompGeo.Tri MeasureTheory

theorem ret_of_bind {α β : Type} {x : Outcome α} {g : α → Outcome β} {b : β} (h : (x >>= g) = .ret b) : ∃ a, x = .ret a ∧ g a = .ret b := by
  cases x with
  | ret a => exact ⟨a, rfl, by rwa [Outcome.bind_ret] at h⟩
  | exn e => rw [Outcome.bind_exn] at h; cases h
  | ub => rw [Outcome.bind_ub] at h; cases h

/-! ## Regular polygons -/

/-- The corner number `k` of the regular `n`-gon with circumradius `R` about the origin. -/
noncomputable def corner (n : ℤ) (R : ℝ) (k : ℤ) : Pt := (R * Real.cos (2 * Real.pi * k / n), R * Real.sin (2 * Real.pi * k / n))

theorem half_angle {n : ℤ} (hn : 3 ≤ n) : 0 < Real.pi / n ∧ Real.pi / n < Real.pi / 2 ∧ 0 < Real.sin (Real.pi / n) ∧ 0 < Real.cos (Real.pi / n) := by
  have hpi := Real.pi_pos
  have h3 : (3 : ℝ) ≤ n := by exact_mod_cast hn
  have h1 : 0 < Real.pi / n := by positivity
  have h2 : Real.pi / n < Real.pi / 2 := div_lt_div_of_pos_left hpi (by norm_num) (by linarith)
  exact ⟨h1, h2, Real.sin_pos_of_pos_of_lt_pi h1 (by linarith), Real.cos_pos_of_mem_Ioo ⟨by linarith, h2⟩⟩

theorem corner_step {n : ℤ} (hn : 3 ≤ n) (R : ℝ) (k : ℤ) :
    corner n R (k + 1) = (R * (Real.cos (2 * Real.pi * k / n) * Real.cos (2 * (Real.pi / n)) - Real.sin (2 * Real.pi * k / n) * Real.sin (2 * (Real.pi / n))),
      R * (Real.sin (2 * Real.pi * k / n) * Real.cos (2 * (Real.pi / n)) + Real.cos (2 * Real.pi * k / n) * Real.sin (2 * (Real.pi / n)))) := by
  have h3 : (n : ℝ) ≠ 0 := by have : (3 : ℝ) ≤ n := by exact_mod_cast hn
                              linarith
  rw [corner, ← Real.cos_add, ← Real.sin_add, show 2 * Real.pi * ((k + 1 : ℤ) : ℝ) / n = 2 * Real.pi * k / n + 2 * (Real.pi / n) by push_cast; ring]

theorem corner_back {n : ℤ} (hn : 3 ≤ n) (R : ℝ) (k : ℤ) :
    corner n R (k - 1) = (R * (Real.cos (2 * Real.pi * k / n) * Real.cos (2 * (Real.pi / n)) + Real.sin (2 * Real.pi * k / n) * Real.sin (2 * (Real.pi / n))),
      R * (Real.sin (2 * Real.pi * k / n) * Real.cos (2 * (Real.pi / n)) - Real.cos (2 * Real.pi * k / n) * Real.sin (2 * (Real.pi / n)))) := by
  have h3 : (n : ℝ) ≠ 0 := by have : (3 : ℝ) ≤ n := by exact_mod_cast hn
                              linarith
  rw [corner, ← Real.cos_sub, ← Real.sin_sub, show 2 * Real.pi * ((k - 1 : ℤ) : ℝ) / n = 2 * Real.pi * k / n - 2 * (Real.pi / n) by push_cast; ring]

theorem corner_dist {n : ℤ} (hn : 3 ≤ n) {R : ℝ} (hR : 0 ≤ R) (k : ℤ) : euclid (corner n R k) (corner n R (k + 1)) = 2 * R * Real.sin (Real.pi / n) := by
  obtain ⟨-, -, hs, -⟩ := half_angle hn
  refine euclid_of (by positivity) ?_
  rw [corner_step hn]
  simp only [corner]
  have h1 := Real.sin_sq_add_cos_sq (2 * Real.pi * k / n)
  have h2 := Real.sin_sq (Real.pi / n)
  rw [Real.cos_two_mul, Real.sin_two_mul]
  generalize Real.cos (2 * Real.pi * k / n) = c at *
  generalize Real.sin (2 * Real.pi * k / n) = s at *
  generalize Real.cos (Real.pi / n) = x at *
  generalize Real.sin (Real.pi / n) = y at *
  have e : (R * c - R * (c * (2 * x ^ 2 - 1) - s * (2 * y * x))) ^ 2 + (R * s - R * (s * (2 * x ^ 2 - 1) + c * (2 * y * x))) ^ 2 =
      R ^ 2 * (s ^ 2 + c ^ 2) * ((2 - 2 * x ^ 2) ^ 2 + 4 * y ^ 2 * x ^ 2) := by ring
  rw [e, h1, mul_pow, h2]
  ring

theorem corner_area2 {n : ℤ} (hn : 3 ≤ n) (R : ℝ) (k : ℤ) : area2 (corner n R k) (corner n R (k + 1)) (0, 0) = R ^ 2 * Real.sin (2 * (Real.pi / n)) := by
  rw [corner_step hn]
  simp only [corner, area2]
  have h1 := Real.sin_sq_add_cos_sq (2 * Real.pi * k / n)
  linear_combination R ^ 2 * Real.sin (2 * (Real.pi / n)) * h1

/-- **C124.**  Regular polygon with at least three sides of positive length, placed with its centre at the origin: the corners at distance
`Circumradius` from the centre have neighbours at distance `SideLength`; the lines through the sides are at distance `Apothem` from the centre;
`InteriorAngle` is the angle at each corner; `Area` is the shoelace sum; and each of the three named constructors returns the side for which
circumradius, inradius and area are those given. -/
theorem poly_spec (n : ℤ) (hn : 3 ≤ n) (s : ℝ) (hs : 0 < s) :
    (∃ R r A, polyCircumradius n s = .ret R ∧ apothem n s = .ret r ∧ polyArea n s = .ret A ∧ 0 < R ∧ 0 < r ∧
      (∀ k, euclid (corner n R k) (corner n R (k + 1)) = s ∧ euclid (0, 0) (corner n R k) = R ∧ corner n R (k + n) = corner n R k ∧
        AtDistance (0, 0) (corner n R k) (corner n R (k + 1)) r ∧
        EuclideanGeometry.angle (toE (corner n R (k - 1))) (toE (corner n R k)) (toE (corner n R (k + 1))) = interiorAngle n ∧
        EuclideanGeometry.angle (toE (corner n R k)) (toE (0, 0)) (toE (corner n R (k + 1))) = centralAngle n) ∧
      polyPerimeter n s = ∑ k ∈ Finset.range n.toNat, euclid (corner n R k) (corner n R (k + 1)) ∧
      A = (∑ k ∈ Finset.range n.toNat, area2 (0, 0) (corner n R k) (corner n R (k + 1))) / 2) ∧
    polyCircumradius n (polyFromCircumradius n s) = .ret s ∧ apothem n (polyFromInradius n s) = .ret s ∧
    (∃ t, polyFromArea n s = .ret t ∧ 0 < t ∧ polyArea n t = .ret s) := by
  obtain ⟨h0, h2, hsin, hcos⟩ := half_angle hn
  have hpi := Real.pi_pos
  have h3 : (3 : ℝ) ≤ n := by exact_mod_cast hn
  have hn0 : (0 : ℝ) < n := by linarith
  have htan : 0 < Real.tan (Real.pi / n) := Real.tan_pos_of_pos_of_lt_pi_div_two h0 h2
  have htan' : Real.tan (Real.pi / n) = Real.sin (Real.pi / n) / Real.cos (Real.pi / n) := Real.tan_eq_sin_div_cos _
  have hR : 0 < s / (2 * Real.sin (Real.pi / n)) := by positivity
  have hRs : 2 * (s / (2 * Real.sin (Real.pi / n))) * Real.sin (Real.pi / n) = s := by field_simp
  refine ⟨⟨_, _, _, fdiv_ret (by positivity), fdiv_ret (by positivity), fdiv_ret htan.ne', hR, by positivity, fun k => ?_, ?_, ?_⟩, ?_, ?_, ?_⟩
  · have hd : euclid (corner n (s / (2 * Real.sin (Real.pi / n))) k) (corner n (s / (2 * Real.sin (Real.pi / n))) (k + 1)) = s := by
      rw [corner_dist hn hR.le, hRs]
    have hd' : euclid (corner n (s / (2 * Real.sin (Real.pi / n))) (k - 1)) (corner n (s / (2 * Real.sin (Real.pi / n))) k) = s := by
      have := corner_dist hn hR.le (k - 1)
      rw [sub_add_cancel] at this
      rw [this, hRs]
    have hne : corner n (s / (2 * Real.sin (Real.pi / n))) k ≠ corner n (s / (2 * Real.sin (Real.pi / n))) (k + 1) := by
      intro he
      rw [← he, euclid] at hd
      simp at hd
      exact hs.ne hd
    have hrad : ∀ k, euclid (0, 0) (corner n (s / (2 * Real.sin (Real.pi / n))) k) = s / (2 * Real.sin (Real.pi / n)) := fun k => by
      refine euclid_of hR.le ?_
      simp only [corner]
      have h1 := Real.sin_sq_add_cos_sq (2 * Real.pi * k / n)
      linear_combination (s / (2 * Real.sin (Real.pi / n))) ^ 2 * h1
    refine ⟨hd, hrad k, ?_, ?_, ?_, ?_⟩
    · simp only [corner]
      rw [show 2 * Real.pi * ((k + n : ℤ) : ℝ) / n = 2 * Real.pi * k / n + 2 * Real.pi by push_cast; field_simp, Real.cos_add_two_pi, Real.sin_add_two_pi]
    · refine dist_line _ _ _ _ hne ?_
      rw [hd, corner_area2 hn, Real.sin_two_mul, htan', abs_of_pos (by positivity)]
      field_simp
    · rw [EuclideanGeometry.angle, InnerProductGeometry.angle]
      have e1 : ‖toE (corner n (s / (2 * Real.sin (Real.pi / n))) (k - 1)) -ᵥ toE (corner n (s / (2 * Real.sin (Real.pi / n))) k)‖ = s := by
        rw [vsub_eq_sub, toE_norm, hd']
      have e2 : ‖toE (corner n (s / (2 * Real.sin (Real.pi / n))) (k + 1)) -ᵥ toE (corner n (s / (2 * Real.sin (Real.pi / n))) k)‖ = s := by
        rw [vsub_eq_sub, toE_norm, Lines.euclid_comm, hd]
      have e3 : inner ℝ (toE (corner n (s / (2 * Real.sin (Real.pi / n))) (k - 1)) -ᵥ toE (corner n (s / (2 * Real.sin (Real.pi / n))) k))
          (toE (corner n (s / (2 * Real.sin (Real.pi / n))) (k + 1)) -ᵥ toE (corner n (s / (2 * Real.sin (Real.pi / n))) k)) / (s * s) =
          -Real.cos (2 * (Real.pi / n)) := by
        rw [div_eq_iff (by positivity), corner_step hn, corner_back hn]
        simp only [toE, corner, vsub_eq_sub, PiLp.inner_apply, Fin.sum_univ_two]
        simp
        have h1 := Real.sin_sq_add_cos_sq (2 * Real.pi * k / n)
        have h4 := Real.sin_sq_add_cos_sq (Real.pi / n)
        have h5 := Real.sin_two_mul (Real.pi / n)
        have h6 := Real.cos_two_mul (Real.pi / n)
        rw [h5, h6]
        generalize Real.cos (2 * Real.pi * k / n) = c at *
        generalize Real.sin (2 * Real.pi * k / n) = t at *
        generalize Real.cos (Real.pi / n) = x at *
        generalize hy : Real.sin (Real.pi / n) = y at *
        have hx2 : x ^ 2 = 1 - y ^ 2 := by linarith
        have hc2 : c ^ 2 = 1 - t ^ 2 := by linarith
        field_simp
        ring_nf
        rw [show x ^ 4 = (x ^ 2) ^ 2 by ring, hx2, hc2]
        ring
      rw [e1, e2, e3, Real.arccos_neg, Real.arccos_cos (by linarith) (by linarith), interiorAngle]
      field_simp
    · rw [EuclideanGeometry.angle, InnerProductGeometry.angle]
      have e1 : ∀ k, ‖toE (corner n (s / (2 * Real.sin (Real.pi / n))) k) -ᵥ toE (0, 0)‖ = s / (2 * Real.sin (Real.pi / n)) := fun k => by
        rw [vsub_eq_sub, toE_norm, Lines.euclid_comm, hrad]
      have e3 : inner ℝ (toE (corner n (s / (2 * Real.sin (Real.pi / n))) k) -ᵥ toE (0, 0))
          (toE (corner n (s / (2 * Real.sin (Real.pi / n))) (k + 1)) -ᵥ toE (0, 0)) / (s / (2 * Real.sin (Real.pi / n)) * (s / (2 * Real.sin (Real.pi / n)))) =
          Real.cos (2 * (Real.pi / n)) := by
        rw [div_eq_iff (by positivity), corner_step hn]
        simp only [toE, corner, vsub_eq_sub, PiLp.inner_apply, Fin.sum_univ_two]
        simp
        have h1 := Real.sin_sq_add_cos_sq (2 * Real.pi * k / n)
        linear_combination (s / (2 * Real.sin (Real.pi / n))) ^ 2 * Real.cos (2 * (Real.pi / n)) * h1
      rw [e1, e1, e3, Real.arccos_cos (by linarith) (by linarith), centralAngle]
      ring
  · simp only [corner_dist hn hR.le, hRs]
    rw [Finset.sum_const, Finset.card_range, polyPerimeter, nsmul_eq_mul]
    congr 1
    exact_mod_cast (Int.toNat_of_nonneg (by omega)).symm
  · have : ∀ k : ℤ, area2 (0, 0) (corner n (s / (2 * Real.sin (Real.pi / n))) k) (corner n (s / (2 * Real.sin (Real.pi / n))) (k + 1)) =
        (s / (2 * Real.sin (Real.pi / n))) ^ 2 * Real.sin (2 * (Real.pi / n)) := fun k => by
      rw [← corner_area2 hn _ k, area2, area2]; ring
    simp only [this]
    rw [Finset.sum_const, Finset.card_range, nsmul_eq_mul, show ((n.toNat : ℕ) : ℝ) = n by exact_mod_cast Int.toNat_of_nonneg (by omega), htan', Real.sin_two_mul]
    field_simp
    norm_num
  · rw [polyCircumradius, polyFromCircumradius, fdiv_ret (by positivity)]
    congr 1; field_simp
  · rw [apothem, polyFromInradius, fdiv_ret (by positivity)]
    congr 1; field_simp
  · have hpos : 0 < 4 * s * Real.tan (Real.pi / n) / n := by positivity
    refine ⟨Real.sqrt (4 * s * Real.tan (Real.pi / n) / n), by rw [polyFromArea, Quat.sqrtU, if_neg (not_lt.2 hpos.le)], Real.sqrt_pos.2 hpos, ?_⟩
    rw [polyArea, fdiv_ret htan.ne', mul_assoc (0.25 * (n : ℝ)), Real.mul_self_sqrt hpos.le]
    congr 1
    field_simp
    norm_num

/-- A case of `poly_spec`: the square with side 2. -/
example : ∃ R r A, polyCircumradius 4 2 = .ret R ∧ apothem 4 2 = .ret r ∧ polyArea 4 2 = .ret A ∧ A = 4 ∧ r = 1 := by
  have e : Real.tan (Real.pi / ((4 : ℤ) : ℝ)) = 1 := by push_cast; exact Real.tan_pi_div_four
  obtain ⟨⟨R, r, A, h1, h2, h3, -⟩, -⟩ := poly_spec 4 (by norm_num) 2 (by norm_num)
  refine ⟨R, r, A, h1, h2, h3, ?_, ?_⟩
  · rw [polyArea, e, fdiv_ret one_ne_zero] at h3
    simp only [Outcome.ret.injEq] at h3
    rw [← h3]; norm_num
  · rw [apothem, e, fdiv_ret (by norm_num)] at h2
    simp only [Outcome.ret.injEq] at h2
    rw [← h2]; norm_num

/-! ## Quadrilaterals -/

/-- **C124.**  Rectangle `[0, w] × [0, h]`: area, diagonal, the corners at distance `CircumscribedCircleRadius` from the centre; the disc about the centre
with `InscribedCircleRadius` fits and no larger disc fits; `FromDiagonalAndRatio` has the diagonal and ratio given; a golden rectangle is similar to what
remains when a square is cut off. -/
theorem rect_spec (w h d q : ℝ) (hw : 0 < w) (hh : 0 < h) (hd : 0 < d) (hq : 0 < q) :
    volume (Set.Icc (0 : ℝ) w ×ˢ Set.Icc (0 : ℝ) h) = ENNReal.ofReal (rectArea w h) ∧ rectDiagonal w h = euclid (0, 0) (w, h) ∧
    rectDiagonal w h = euclid (w, 0) (0, h) ∧
    (∀ c ∈ [((0 : ℝ), (0 : ℝ)), (w, 0), (w, h), (0, h)], euclid (w / 2, h / 2) c = rectCircumscribed w h) ∧
    {p : Pt | euclid (w / 2, h / 2) p ≤ rectInscribed w h} ⊆ Set.Icc 0 w ×ˢ Set.Icc 0 h ∧
    (∀ m r, 0 ≤ r → {p : Pt | euclid m p ≤ r} ⊆ Set.Icc 0 w ×ˢ Set.Icc 0 h → r ≤ rectInscribed w h) ∧
    rectDiagonal (rectFromDiagonal d q).1 (rectFromDiagonal d q).2 = d ∧ (rectFromDiagonal d q).1 / (rectFromDiagonal d q).2 = q ∧
    (goldenRectangle w).1 / (goldenRectangle w).2 = (goldenRectangle w).2 / ((goldenRectangle w).1 - (goldenRectangle w).2) := by
  have hdiag : rectDiagonal w h ^ 2 = w ^ 2 + h ^ 2 := by rw [rectDiagonal, Real.sq_sqrt (by positivity)]; ring
  have hdn : 0 ≤ rectDiagonal w h := Real.sqrt_nonneg _
  refine ⟨?_, ?_, ?_, ?_, ?_, ?_, ?_, ?_, ?_⟩
  · rw [Measure.volume_eq_prod, Measure.prod_prod, Real.volume_Icc, Real.volume_Icc, ← ENNReal.ofReal_mul (by linarith), rectArea]
    congr 1; ring
  · exact (euclid_of hdn (by rw [hdiag]; ring)).symm
  · exact (euclid_of hdn (by rw [hdiag]; ring)).symm
  · intro c hc
    have : rectCircumscribed w h ^ 2 = (w ^ 2 + h ^ 2) / 4 := by rw [rectCircumscribed, div_pow, hdiag]; norm_num
    simp only [List.mem_cons, List.not_mem_nil, or_false] at hc
    rcases hc with rfl | rfl | rfl | rfl <;> exact euclid_of (by rw [rectCircumscribed]; positivity) (by rw [this]; ring)
  · intro p hp
    have hp' : euclid (w / 2, h / 2) p ≤ rectInscribed w h := hp
    have h1 : rectInscribed w h ≤ w / 2 := by rw [rectInscribed]; linarith [min_le_left w h]
    have h2 : rectInscribed w h ≤ h / 2 := by rw [rectInscribed]; linarith [min_le_right w h]
    have e := euclid_sq (w / 2, h / 2) p
    have n := euclid_nonneg (w / 2, h / 2) p
    have a1 : |w / 2 - p.1| ≤ w / 2 := abs_le_of_sq_le_sq (by nlinarith [sq_nonneg (h / 2 - p.2)]) (by positivity)
    have a2 : |h / 2 - p.2| ≤ h / 2 := abs_le_of_sq_le_sq (by nlinarith [sq_nonneg (w / 2 - p.1)]) (by positivity)
    rw [abs_le] at a1 a2
    exact ⟨⟨by linarith, by linarith⟩, by linarith, by linarith⟩
  · intro m r hr hsub
    have p1 := hsub (show euclid m (m.1 - r, m.2) ≤ r from (euclid_of hr (by ring)).le)
    have p2 := hsub (show euclid m (m.1 + r, m.2) ≤ r from (euclid_of hr (by ring)).le)
    have p3 := hsub (show euclid m (m.1, m.2 - r) ≤ r from (euclid_of hr (by ring)).le)
    have p4 := hsub (show euclid m (m.1, m.2 + r) ≤ r from (euclid_of hr (by ring)).le)
    have g1 := p1.1.1; have g2 := p2.1.2; have g3 := p3.2.1; have g4 := p4.2.2
    simp only at g1 g2 g3 g4
    rw [rectInscribed, le_div_iff₀ (by norm_num)]
    exact le_min (by linarith) (by linarith)
  · have hs : 0 < Real.sqrt (1 + q * q) := Real.sqrt_pos.2 (by positivity)
    have hs2 : Real.sqrt (1 + q * q) ^ 2 = 1 + q * q := Real.sq_sqrt (by positivity)
    rw [rectDiagonal, rectFromDiagonal]
    have : d / Real.sqrt (1 + q * q) * q * (d / Real.sqrt (1 + q * q) * q) + d / Real.sqrt (1 + q * q) * (d / Real.sqrt (1 + q * q)) = d ^ 2 := by
      rw [show d / Real.sqrt (1 + q * q) * q * (d / Real.sqrt (1 + q * q) * q) + d / Real.sqrt (1 + q * q) * (d / Real.sqrt (1 + q * q)) =
        d ^ 2 * (1 + q * q) / Real.sqrt (1 + q * q) ^ 2 by field_simp; ring, hs2]
      field_simp
    rw [this, Real.sqrt_sq hd.le]
  · have hs : 0 < Real.sqrt (1 + q * q) := Real.sqrt_pos.2 (by positivity)
    rw [rectFromDiagonal]
    field_simp
  · have h5 : Real.sqrt 5 ^ 2 = 5 := Real.sq_sqrt (by norm_num)
    have h6 : 1 < Real.sqrt 5 := Real.lt_sqrt_of_sq_lt (by norm_num)
    simp only [goldenRectangle]
    have h7 : (1 + Real.sqrt 5) / 2 ≠ 0 := by positivity
    have h8 : w - w / ((1 + Real.sqrt 5) / 2) = w / ((1 + Real.sqrt 5) / 2) * ((Real.sqrt 5 - 1) / 2) := by field_simp; ring
    have h9 : (Real.sqrt 5 - 1) / 2 ≠ 0 := by linarith
    have h10 : (Real.sqrt 5 - 1) ≠ 0 := by linarith
    rw [h8]
    field_simp
    nlinarith

/-- The corners of a parallelogram, the first side along the first axis. -/
noncomputable def parCorner (p : Par) : Fin 4 → Pt :=
  ![(0, 0), (p.a, 0), (p.a + p.b * Real.cos p.angle, p.b * Real.sin p.angle), (p.b * Real.cos p.angle, p.b * Real.sin p.angle)]

/-- **C124.**  Parallelogram with positive sides and angle between 0 and π: the sides and diagonals are the distances of the corners, `Area` twice the
area of either triangle cut off by a diagonal, the heights the distances between the lines through opposite sides. -/
theorem par_spec (p : Par) (ha : 0 < p.a) (hb : 0 < p.b) (h0 : 0 < p.angle) (h1 : p.angle < Real.pi) :
    euclid (parCorner p 0) (parCorner p 1) = p.a ∧ euclid (parCorner p 1) (parCorner p 2) = p.b ∧
    euclid (parCorner p 2) (parCorner p 3) = p.a ∧ euclid (parCorner p 3) (parCorner p 0) = p.b ∧
    p.perimeter = 2 * (p.a + p.b) ∧
    p.diagP = .ret (euclid (parCorner p 1) (parCorner p 3)) ∧ p.diagQ = .ret (euclid (parCorner p 0) (parCorner p 2)) ∧
    p.area = area2 (parCorner p 0) (parCorner p 1) (parCorner p 2) ∧ p.area = area2 (parCorner p 0) (parCorner p 2) (parCorner p 3) ∧
    AtDistance (parCorner p 3) (parCorner p 0) (parCorner p 1) p.heightA ∧ AtDistance (parCorner p 1) (parCorner p 0) (parCorner p 3) p.heightB ∧
    EuclideanGeometry.angle (toE (parCorner p 1)) (toE (parCorner p 0)) (toE (parCorner p 3)) = p.angle := by
  have hs : 0 < Real.sin p.angle := Real.sin_pos_of_pos_of_lt_pi h0 h1
  have hsc := Real.sin_sq_add_cos_sq p.angle
  have e01 : euclid (parCorner p 0) (parCorner p 1) = p.a := euclid_of ha.le (by simp [parCorner])
  have e30 : euclid (parCorner p 3) (parCorner p 0) = p.b := euclid_of hb.le (by simp [parCorner]; linear_combination p.b ^ 2 * hsc)
  refine ⟨e01, euclid_of hb.le (by simp [parCorner]; linear_combination p.b ^ 2 * hsc), euclid_of ha.le (by simp [parCorner]),
    e30, rfl, ?_, ?_, ?_, ?_, ?_, ?_, ?_⟩
  · refine sqrtU_ret (euclid_nonneg _ _) ?_
    rw [euclid_sq]; simp [parCorner]; linear_combination (-p.b ^ 2) * hsc
  · refine sqrtU_ret (euclid_nonneg _ _) ?_
    rw [euclid_sq]; simp [parCorner]; linear_combination (-p.b ^ 2) * hsc
  · simp [Par.area, area2, parCorner]; ring
  · simp [Par.area, area2, parCorner]; ring
  · refine dist_line _ _ _ _ (fun h => ?_) ?_
    · rw [h, euclid] at e01; simp at e01; exact ha.ne e01
    · rw [e01, Par.heightA]
      have : area2 (parCorner p 0) (parCorner p 1) (parCorner p 3) = p.b * Real.sin p.angle * p.a := by simp [area2, parCorner]; ring
      rw [this, abs_of_pos (by positivity)]
  · refine dist_line _ _ _ _ (fun h => ?_) ?_
    · rw [h, euclid] at e30; simp at e30; exact hb.ne e30
    · rw [Lines.euclid_comm, e30, Par.heightB]
      have : area2 (parCorner p 0) (parCorner p 3) (parCorner p 1) = -(p.a * Real.sin p.angle * p.b) := by simp [area2, parCorner]; ring
      rw [this, abs_neg, abs_of_pos (by positivity)]
  · rw [EuclideanGeometry.angle, InnerProductGeometry.angle]
    have n1 : ‖toE (parCorner p 1) -ᵥ toE (parCorner p 0)‖ = p.a := by rw [vsub_eq_sub, toE_norm, Lines.euclid_comm, e01]
    have n2 : ‖toE (parCorner p 3) -ᵥ toE (parCorner p 0)‖ = p.b := by rw [vsub_eq_sub, toE_norm, e30]
    have e3 : inner ℝ (toE (parCorner p 1) -ᵥ toE (parCorner p 0)) (toE (parCorner p 3) -ᵥ toE (parCorner p 0)) = p.a * p.b * Real.cos p.angle := by
      simp [toE, parCorner, vsub_eq_sub, PiLp.inner_apply, Fin.sum_univ_two]; ring
    rw [n1, n2, e3, mul_div_cancel_left₀ _ (by positivity), Real.arccos_cos h0.le h1.le]

/-- **C124, partial.**  The sides found by `FromDiagonals` are those of the parallelogram whose diagonals, of lengths `p` and `q`, cross in their middle
at the angle `γ`.  Missing: the angle, which is wrong. -/
theorem fromDiagonals_partial (p q γ : ℝ) (r : Par) (h : Par.fromDiagonals p q γ = .ret r) :
    r.a = euclid (p / 2, 0) (-(q / 2 * Real.cos γ), -(q / 2 * Real.sin γ)) ∧ r.b = euclid (p / 2, 0) (q / 2 * Real.cos γ, q / 2 * Real.sin γ) := by
  have hsc := Real.sin_sq_add_cos_sq γ
  have ea : Quat.sqrtU (p * p + q * q + 2 * p * q * Real.cos γ) = .ret (2 * euclid (p / 2, 0) (-(q / 2 * Real.cos γ), -(q / 2 * Real.sin γ))) := by
    refine sqrtU_ret (mul_nonneg (by norm_num) (euclid_nonneg _ _)) ?_
    rw [mul_pow, euclid_sq]
    linear_combination (-q ^ 2) * hsc
  have eb : Quat.sqrtU (p * p + q * q - 2 * p * q * Real.cos γ) = .ret (2 * euclid (p / 2, 0) (q / 2 * Real.cos γ, q / 2 * Real.sin γ)) := by
    refine sqrtU_ret (mul_nonneg (by norm_num) (euclid_nonneg _ _)) ?_
    rw [mul_pow, euclid_sq]
    linear_combination (-q ^ 2) * hsc
  rw [Par.fromDiagonals, ea, eb, Outcome.bind_ret, Outcome.bind_ret] at h
  obtain ⟨k, -, h⟩ := ret_of_bind h
  obtain ⟨g, -, h⟩ := ret_of_bind h
  simp only [Outcome.ret.injEq] at h
  rw [← h]
  constructor <;> simp only <;> ring

/-- **C124, a disagreement.**  The parallelogram with two diagonals of length `√2` that cross at a right angle is the unit square; `FromDiagonals` returns
an angle whose cosine is 3/4, so that the diagonals of the result are not those given. -/
theorem fromDiagonals_wrong : ∃ r, Par.fromDiagonals (Real.sqrt 2) (Real.sqrt 2) (Real.pi / 2) = .ret r ∧ r.a = 1 ∧ r.b = 1 ∧ Real.cos r.angle = 3 / 4 ∧
    r.diagP ≠ .ret (Real.sqrt 2) := by
  have h2 : Real.sqrt 2 * Real.sqrt 2 = 2 := Real.mul_self_sqrt (by norm_num)
  have e1 : Quat.sqrtU (Real.sqrt 2 * Real.sqrt 2 + Real.sqrt 2 * Real.sqrt 2 + 2 * Real.sqrt 2 * Real.sqrt 2 * Real.cos (Real.pi / 2)) = .ret 2 :=
    sqrtU_ret (by norm_num) (by rw [Real.cos_pi_div_two, h2]; norm_num)
  have e2 : Quat.sqrtU (Real.sqrt 2 * Real.sqrt 2 + Real.sqrt 2 * Real.sqrt 2 - 2 * Real.sqrt 2 * Real.sqrt 2 * Real.cos (Real.pi / 2)) = .ret 2 :=
    sqrtU_ret (by norm_num) (by rw [Real.cos_pi_div_two, h2]; norm_num)
  have e3 : Interp.fdiv (0.5 * 2 * (0.5 * 2) + 0.5 * 2 * (0.5 * 2) - 0.25 * Real.sqrt 2 * Real.sqrt 2) (2 * (0.5 * 2) * (0.5 * 2)) = .ret (3 / 4) := by
    rw [fdiv_ret (by norm_num), mul_assoc (0.25 : ℝ), h2]; norm_num
  have hcos : Real.cos (Real.arccos (3 / 4)) = 3 / 4 := Real.cos_arccos (by norm_num) (by norm_num)
  refine ⟨⟨0.5 * 2, 0.5 * 2, Real.arccos (3 / 4)⟩, ?_, by norm_num, by norm_num, hcos, ?_⟩
  · rw [Par.fromDiagonals, e1, e2, Outcome.bind_ret, Outcome.bind_ret, e3, Outcome.bind_ret, acosU_ret (by norm_num) (by norm_num), Outcome.bind_ret]
  · rw [Par.diagP, hcos, Quat.sqrtU, if_neg (by norm_num)]
    simp only [ne_eq, Outcome.ret.injEq]
    intro h
    have := congrArg (fun x => x * x) h
    simp only [h2] at this
    rw [Real.mul_self_sqrt (by norm_num)] at this
    norm_num at this

/-- The corners of a rhombus on the axes. -/
noncomputable def rhoCorner (d1 d2 : ℝ) : Fin 4 → Pt := ![(d1 / 2, 0), (0, d2 / 2), (-(d1 / 2), 0), (0, -(d2 / 2))]

/-- **C124.**  Rhombus with positive diagonals: all sides have length `Side`; `Area` is the shoelace sum; `Height` is the distance between the lines through
opposite sides and `Inradius` the distance of the centre from the lines through the sides; `AcuteAngle` is at most a right angle and is the angle at the
end of the longer diagonal; the named constructors keep the side, the diagonal and the angle given. -/
theorem rhombus_spec (d1 d2 s θ : ℝ) (h1 : 0 < d1) (h2 : 0 < d2) (hs : 0 < s) (h0 : 0 < θ) (hθ : θ < Real.pi) :
    (∀ i : Fin 4, euclid (rhoCorner d1 d2 i) (rhoCorner d1 d2 (i + 1)) = (Rho.new d1 d2).side) ∧
    (Rho.new d1 d2).area = (∑ i : Fin 4, area2 (0, 0) (rhoCorner d1 d2 i) (rhoCorner d1 d2 (i + 1))) / 2 ∧
    (∃ h r x, (Rho.new d1 d2).height = .ret h ∧ (Rho.new d1 d2).inradius = .ret r ∧ (Rho.new d1 d2).acute = .ret x ∧
      AtDistance (rhoCorner d1 d2 3) (rhoCorner d1 d2 0) (rhoCorner d1 d2 1) h ∧
      (∀ i : Fin 4, AtDistance (0, 0) (rhoCorner d1 d2 i) (rhoCorner d1 d2 (i + 1)) r) ∧ 0 < x ∧ x ≤ Real.pi / 2 ∧
      Real.cos x = (max d1 d2 ^ 2 - min d1 d2 ^ 2) / (d1 ^ 2 + d2 ^ 2)) ∧
    (d1 < 2 * s → ∃ r, Rho.fromSideAndDiagonal s d1 = .ret r ∧ r.side = s ∧ r.d1 = d1 ∧ 0 < r.d2) ∧
    (Rho.fromSideAndAngle s θ).side = s ∧ (Rho.fromSideAndAngle s θ).area = s ^ 2 * Real.sin θ := by
  set S := Real.sqrt (d1 * d1 + d2 * d2) with hS
  have hSp : 0 < S := Real.sqrt_pos.2 (by positivity)
  have hS2 : S ^ 2 = d1 * d1 + d2 * d2 := Real.sq_sqrt (by positivity)
  have hside : (Rho.new d1 d2).side = S / 2 := rfl
  have hdist : ∀ i : Fin 4, euclid (rhoCorner d1 d2 i) (rhoCorner d1 d2 (i + 1)) = S / 2 := by
    intro i
    refine euclid_of (by positivity) ?_
    rw [div_pow, hS2]
    fin_cases i <;> simp [rhoCorner] <;> ring
  have hne : ∀ i : Fin 4, rhoCorner d1 d2 i ≠ rhoCorner d1 d2 (i + 1) := by
    intro i he
    have := hdist i
    rw [← he, euclid] at this
    simp at this
    linarith
  refine ⟨hdist, ?_, ⟨d1 * d2 / S, d1 * d2 / (2 * S), 2 * Real.arctan (min d1 d2 / max d1 d2), ?_, ?_, ?_, ?_, ?_, ?_, ?_, ?_⟩, ?_, ?_, ?_⟩
  · simp [Rho.new, Rho.area, rhoCorner, area2, Fin.sum_univ_four]
    norm_num
    ring
  · rw [Rho.height, hside, fdiv_ret (by positivity)]
    congr 1
    simp only [Rho.area, Rho.new]
    field_simp
    norm_num
  · rw [Rho.inradius]
    exact fdiv_ret (by simp only [Rho.new]; positivity)
  · rw [Rho.acute]
    simp only [Rho.new]
    rw [fdiv_ret (by positivity), Outcome.bind_ret]
  · refine dist_line _ _ _ _ (hne 0) ?_
    rw [show euclid (rhoCorner d1 d2 0) (rhoCorner d1 d2 1) = S / 2 from hdist 0]
    have : area2 (rhoCorner d1 d2 0) (rhoCorner d1 d2 1) (rhoCorner d1 d2 3) = d1 * d2 / 2 := by simp [rhoCorner, area2]; ring
    rw [this, abs_of_pos (by positivity)]
    field_simp
  · intro i
    refine dist_line _ _ _ _ (hne i) ?_
    rw [hdist i]
    have : area2 (rhoCorner d1 d2 i) (rhoCorner d1 d2 (i + 1)) (0, 0) = d1 * d2 / 4 := by fin_cases i <;> simp [rhoCorner, area2] <;> ring
    rw [this, abs_of_pos (by positivity)]
    field_simp
    norm_num
  · have : 0 < Real.arctan (min d1 d2 / max d1 d2) := Real.arctan_pos.2 (by positivity)
    linarith
  · have hle : min d1 d2 / max d1 d2 ≤ 1 := by rw [div_le_one (by positivity)]; exact min_le_max
    have := Real.arctan_strictMono.monotone hle
    rw [Real.arctan_one] at this
    linarith
  · have hmm : min d1 d2 ^ 2 + max d1 d2 ^ 2 = d1 ^ 2 + d2 ^ 2 := by
      rcases le_total d1 d2 with h | h
      · rw [min_eq_left h, max_eq_right h]
      · rw [min_eq_right h, max_eq_left h]; ring
    have hmax : 0 < max d1 d2 := by positivity
    rw [Real.cos_two_mul, Real.cos_sq_arctan, ← hmm]
    have : 0 < min d1 d2 := by positivity
    field_simp
    ring
  · intro hlt
    have hp : 0 < s * s - d1 / 2 * (d1 / 2) := by nlinarith
    refine ⟨_, by rw [Rho.fromSideAndDiagonal, Quat.sqrtU, if_neg (not_lt.2 hp.le), Outcome.bind_ret], ?_, rfl, ?_⟩
    · show Real.sqrt _ / 2 = s
      rw [show d1 * d1 + 2 * Real.sqrt (s * s - d1 / 2 * (d1 / 2)) * (2 * Real.sqrt (s * s - d1 / 2 * (d1 / 2))) =
        d1 * d1 + 4 * (Real.sqrt (s * s - d1 / 2 * (d1 / 2)) * Real.sqrt (s * s - d1 / 2 * (d1 / 2))) by ring, Real.mul_self_sqrt hp.le,
        show d1 * d1 + 4 * (s * s - d1 / 2 * (d1 / 2)) = (2 * s) ^ 2 by ring, Real.sqrt_sq (by positivity)]
      ring
    · exact mul_pos two_pos (Real.sqrt_pos.2 hp)
  · show Real.sqrt _ / 2 = s
    have hsc := Real.sin_sq_add_cos_sq (θ / 2)
    rw [show 2 * s * Real.sin (θ / 2) * (2 * s * Real.sin (θ / 2)) + 2 * s * Real.cos (θ / 2) * (2 * s * Real.cos (θ / 2)) = (2 * s) ^ 2 by
      linear_combination 4 * s ^ 2 * hsc, Real.sqrt_sq (by positivity)]
    ring
  · have := Real.sin_two_mul (θ / 2)
    rw [show 2 * (θ / 2) = θ by ring] at this
    rw [this, Rho.area, Rho.fromSideAndAngle, Rho.new]
    ring

/-- **C124.**  Trapezoid with the parallel sides from `(0, 0)` to `(a, 0)` and from `(x, h)` to `(x + b, h)`: `Area` is the sum of the two triangles cut off
by a diagonal, `Median` the distance between the midpoints of the other two sides; `Isosceles` has legs of the length given. -/
theorem trap_spec (a b h x l : ℝ) (ha : 0 < a) (hb : 0 < b) :
    trapArea a b h = (area2 (0, 0) (a, 0) (x + b, h) + area2 (0, 0) (x + b, h) (x, h)) / 2 ∧
    trapMedian a b = euclid (x / 2, h / 2) ((a + (x + b)) / 2, h / 2) ∧
    (0 < l → |a - b| < 2 * l → ∃ h', trapIsosceles a b l = .ret h' ∧ 0 < h' ∧ euclid (0, 0) ((a - b) / 2, h') = l ∧ euclid (a, 0) ((a - b) / 2 + b, h') = l) := by
  refine ⟨by simp only [trapArea, area2]; ring, ?_, fun hl hlt => ?_⟩
  · refine (euclid_of (by rw [trapMedian]; positivity) ?_).symm
    rw [trapMedian]; ring
  · have hp : 0 < l * l - 0.25 * (a - b) ^ 2 := by
      have := abs_lt.1 hlt
      nlinarith [mul_pos (by linarith : 0 < 2 * l - (a - b)) (by linarith : 0 < 2 * l + (a - b))]
    refine ⟨_, by rw [trapIsosceles, Quat.sqrtU, if_neg (not_lt.2 hp.le)], Real.sqrt_pos.2 hp, euclid_of hl.le ?_, euclid_of hl.le ?_⟩
    · simp only [zero_sub, neg_sq, Real.sq_sqrt hp.le]; ring
    · simp only [zero_sub, neg_sq, Real.sq_sqrt hp.le]; ring

/-- A case of `rhombus_spec`: the diagonals 6 and 8 belong to the side 5. -/
example : (Rho.new 6 8).side = 5 ∧ (Rho.new 6 8).area = 24 := by
  refine ⟨?_, by simp only [Rho.area, Rho.new]; norm_num⟩
  show Real.sqrt (6 * 6 + 8 * 8) / 2 = 5
  rw [show (6 * 6 + 8 * 8 : ℝ) = 10 ^ 2 by norm_num, Real.sqrt_sq (by norm_num)]
  norm_num

/-- A case of `par_spec`: sides 2 and 3 at 60 degrees. -/
example : AtDistance (parCorner ⟨2, 3, Real.pi / 3⟩ 3) (parCorner ⟨2, 3, Real.pi / 3⟩ 0) (parCorner ⟨2, 3, Real.pi / 3⟩ 1) (3 * (Real.sqrt 3 / 2)) := by
  have := (par_spec ⟨2, 3, Real.pi / 3⟩ (by norm_num) (by norm_num) (by simp only; positivity) (by simp only; linarith [Real.pi_pos])).2.2.2.2.2.2.2.2.2.1
  rwa [Par.heightA, Real.sin_pi_div_three] at this

/-- A case of `trap_spec`: base 8, top 2 and legs 5 give height 4. -/
example : trapIsosceles 8 2 5 = .ret 4 := sqrtU_ret (by norm_num) (by norm_num)

end Verif.Geom.Shp
