import Verif.Geom.Shapes2DProps

/-!
# Properties of circles, sectors, segments, ellipses, regular polygons and quadrilaterals (C124)
-/

set_option autoImplicit false

namespace Verif.Geom.Shp
open CompGeo CompGeo.Tri MeasureTheory

/-! ## Circles -/

/-- The sector of radius `r` and angle `θ`, about the positive first axis. -/
def sector (r θ : ℝ) : Set Pt := {p | ∃ s t : ℝ, 0 < s ∧ s < r ∧ -(θ / 2) < t ∧ t < θ / 2 ∧ p = (s * Real.cos t, s * Real.sin t)}

/-- The segment of radius `r` and angle `θ`, about the positive first axis: the part of the disc beyond the chord. -/
def segment (r θ : ℝ) : Set Pt := {p | p.1 * p.1 + p.2 * p.2 ≤ r * r ∧ r * Real.cos (θ / 2) ≤ p.1}

theorem sector_measure (r θ : ℝ) (hr : 0 ≤ r) (h0 : 0 ≤ θ) (h1 : θ ≤ 2 * Real.pi) : volume (sector r θ) = ENNReal.ofReal (sectorArea r θ) := by
  have hS : sector r θ = polarCoord.symm '' (Set.Ioo 0 r ×ˢ Set.Ioo (-(θ / 2)) (θ / 2)) := by
    ext p
    simp only [sector, Set.mem_setOf_eq, Set.mem_image, Set.mem_prod, Set.mem_Ioo, Prod.exists, polarCoord_symm_apply]
    constructor
    · rintro ⟨s, t, a1, a2, a3, a4, rfl⟩; exact ⟨s, t, ⟨⟨a1, a2⟩, a3, a4⟩, rfl⟩
    · rintro ⟨s, t, ⟨⟨a1, a2⟩, a3, a4⟩, rfl⟩; exact ⟨s, t, a1, a2, a3, a4, rfl⟩
  have hsub : Set.Ioo 0 r ×ˢ Set.Ioo (-(θ / 2)) (θ / 2) ⊆ polarCoord.target := by
    rintro ⟨s, t⟩ ⟨⟨a1, a2⟩, a3, a4⟩
    exact ⟨a1, by simp only at a3; exact lt_of_le_of_lt (by linarith) a3, lt_of_lt_of_le a4 (by linarith)⟩
  have hopen : IsOpen (sector r θ) := by
    rw [hS]
    exact polarCoord.symm.isOpen_image_of_subset_source (isOpen_Ioo.prod isOpen_Ioo) hsub
  have hind : ∀ q ∈ polarCoord.target, (sector r θ).indicator (1 : Pt → ENNReal) (polarCoord.symm q) =
      (Set.Ioo 0 r ×ˢ Set.Ioo (-(θ / 2)) (θ / 2)).indicator 1 q := by
    intro q hq
    by_cases hm : q ∈ Set.Ioo 0 r ×ˢ Set.Ioo (-(θ / 2)) (θ / 2)
    · rw [Set.indicator_of_mem hm, Set.indicator_of_mem (hS ▸ Set.mem_image_of_mem _ hm)]; rfl
    · rw [Set.indicator_of_notMem hm, Set.indicator_of_notMem]
      rw [hS]
      rintro ⟨q', hq', he⟩
      exact hm (polarCoord.symm.injOn (hsub hq') hq he ▸ hq')
  have h2 := lintegral_comp_polarCoord_symm ((sector r θ).indicator (1 : Pt → ENNReal))
  rw [lintegral_indicator_one hopen.measurableSet] at h2
  rw [← h2]
  have hmeas : MeasurableSet (Set.Ioo 0 r ×ˢ Set.Ioo (-(θ / 2)) (θ / 2)) := measurableSet_Ioo.prod measurableSet_Ioo
  have h3 : ∫⁻ p in polarCoord.target, ENNReal.ofReal p.1 • (sector r θ).indicator (1 : Pt → ENNReal) (polarCoord.symm p) =
      ∫⁻ p in Set.Ioo 0 r ×ˢ Set.Ioo (-(θ / 2)) (θ / 2), ENNReal.ofReal p.1 := by
    rw [← lintegral_indicator polarCoord.open_target.measurableSet, ← lintegral_indicator hmeas]
    refine lintegral_congr fun q => ?_
    by_cases hq : q ∈ polarCoord.target
    · rw [Set.indicator_of_mem hq, hind q hq]
      by_cases hm : q ∈ Set.Ioo 0 r ×ˢ Set.Ioo (-(θ / 2)) (θ / 2)
      · rw [Set.indicator_of_mem hm, Set.indicator_of_mem hm]; simp
      · rw [Set.indicator_of_notMem hm, Set.indicator_of_notMem hm]; simp
    · rw [Set.indicator_of_notMem hq, Set.indicator_of_notMem (fun h => hq (hsub h))]
  rw [h3, Measure.volume_eq_prod, ← Measure.prod_restrict, lintegral_prod _ (by fun_prop)]
  simp only [lintegral_const, Measure.restrict_apply MeasurableSet.univ, Set.univ_inter, Real.volume_Ioo]
  rw [lintegral_mul_const _ (by fun_prop)]
  have h4 : ∫⁻ x in Set.Ioo 0 r, ENNReal.ofReal x = ENNReal.ofReal (r ^ 2 / 2) := by
    rw [Measure.restrict_congr_set Ioo_ae_eq_Icc, Bod.lint_interval 0 r hr (fun x => x) continuous_id (fun z hz => hz.1), integral_id]
    congr 1
    ring
  rw [h4, ← ENNReal.ofReal_mul (by positivity), sectorArea]
  congr 1
  ring

theorem segment_integral (r α : ℝ) (hr : 0 ≤ r) (h0 : 0 ≤ α) (h1 : α ≤ Real.pi) :
    ∫ z in (r * Real.cos α)..r, 2 * Real.sqrt (r * r - z * z) = r * r * (α - Real.sin α * Real.cos α) := by
  have hsub := intervalIntegral.integral_comp_mul_deriv (a := α) (b := 0) (f := fun t => r * Real.cos t) (f' := fun t => r * -Real.sin t)
    (g := fun z => 2 * Real.sqrt (r * r - z * z)) (fun t _ => (Real.hasDerivAt_cos t).const_mul r) (by fun_prop) (by fun_prop)
  simp only [Real.cos_zero, mul_one] at hsub
  rw [← hsub, intervalIntegral.integral_symm]
  have hcongr : ∫ x in (0 : ℝ)..α, ((fun z => 2 * Real.sqrt (r * r - z * z)) ∘ fun t => r * Real.cos t) x * (r * -Real.sin x) =
      ∫ x in (0 : ℝ)..α, (-2 * (r * r)) * Real.sin x ^ 2 := by
    refine intervalIntegral.integral_congr fun x hx => ?_
    rw [Set.uIcc_of_le h0] at hx
    have hs : 0 ≤ Real.sin x := Real.sin_nonneg_of_nonneg_of_le_pi hx.1 (hx.2.trans h1)
    have : Real.sqrt (r * r - r * Real.cos x * (r * Real.cos x)) = r * Real.sin x := by
      rw [show r * r - r * Real.cos x * (r * Real.cos x) = (r * Real.sin x) ^ 2 by rw [mul_pow, Real.sin_sq]; ring, Real.sqrt_sq (mul_nonneg hr hs)]
    simp only [Function.comp, this]
    ring
  rw [hcongr, intervalIntegral.integral_const_mul, integral_sin_sq]
  simp
  ring

theorem segment_measure (r θ : ℝ) (hr : 0 ≤ r) (h0 : 0 ≤ θ) (h1 : θ ≤ 2 * Real.pi) : volume (segment r θ) = ENNReal.ofReal (segmentArea r θ) := by
  have hm : MeasurableSet (segment r θ) := by
    have c1 : IsClosed {p : ℝ × ℝ | p.1 * p.1 + p.2 * p.2 ≤ r * r} := isClosed_le (by fun_prop) (by fun_prop)
    have c2 : IsClosed {p : ℝ × ℝ | r * Real.cos (θ / 2) ≤ p.1} := isClosed_le (by fun_prop) (by fun_prop)
    exact (c1.inter c2).measurableSet
  have hc : r * Real.cos (θ / 2) ≤ r := mul_le_of_le_one_right hr (Real.cos_le_one _)
  have hc2 : -r ≤ r * Real.cos (θ / 2) := by nlinarith [Real.neg_one_le_cos (θ / 2)]
  rw [Measure.volume_eq_prod, Measure.prod_apply hm]
  have h2 : ∫⁻ x, volume (Prod.mk x ⁻¹' segment r θ) = ∫⁻ z in Set.Icc (r * Real.cos (θ / 2)) r, ENNReal.ofReal (2 * Real.sqrt (r * r - z * z)) := by
    rw [← lintegral_indicator measurableSet_Icc]
    refine lintegral_congr fun x => ?_
    by_cases hx : x ∈ Set.Icc (r * Real.cos (θ / 2)) r
    · rw [Set.indicator_of_mem hx]
      have hx2 : x * x ≤ r * r := by nlinarith [hx.1, hx.2]
      have : (Prod.mk x ⁻¹' segment r θ) = Set.Icc (-Real.sqrt (r * r - x * x)) (Real.sqrt (r * r - x * x)) := by
        ext y
        simp only [segment, Set.mem_preimage, Set.mem_setOf_eq, Set.mem_Icc, hx.1, and_true]
        rw [← abs_le, ← sq_le_sq₀ (abs_nonneg _) (Real.sqrt_nonneg _), Real.sq_sqrt (by linarith), sq_abs]
        constructor <;> intro h <;> nlinarith
      rw [this, Real.volume_Icc]; congr 1; ring
    · rw [Set.indicator_of_notMem hx]
      have : (Prod.mk x ⁻¹' segment r θ) = ∅ := by
        ext y
        simp only [segment, Set.mem_preimage, Set.mem_setOf_eq, Set.mem_empty_iff_false, iff_false, not_and_or, not_le]
        rw [Set.mem_Icc, not_and_or, not_le, not_le] at hx
        rcases hx with hx | hx
        · exact Or.inr hx
        · exact Or.inl (by nlinarith [mul_self_nonneg y])
      rw [this, measure_empty]
  rw [h2, Bod.lint_interval _ _ hc _ (by fun_prop) (fun z _ => by positivity), segment_integral r (θ / 2) hr (by linarith) (by linarith), segmentArea]
  have := Real.sin_two_mul (θ / 2)
  rw [show 2 * (θ / 2) = θ by ring] at this
  rw [this]
  congr 1
  ring

/-- **C124.**  Circle, sector, segment and annulus with radius at least 0 and angle in `[0, 2π]`: the areas are the Lebesgue measures of the figures, the
chord is the distance of the end points of the arc, the sagitta the height of the segment, the arc length the integral of the speed along the arc; the
named constructors return the radius or angle for which area, circumference or sagitta is the one given. -/
theorem circle_spec (r θ i : ℝ) (hr : 0 ≤ r) (h0 : 0 ≤ θ) (h1 : θ ≤ 2 * Real.pi) (hi : 0 ≤ i) (hir : i ≤ r) :
    volume {p : Pt | p.1 ^ 2 + p.2 ^ 2 ≤ r ^ 2} = ENNReal.ofReal (circleArea r) ∧
    volume (sector r θ) = ENNReal.ofReal (sectorArea r θ) ∧ volume (segment r θ) = ENNReal.ofReal (segmentArea r θ) ∧
    volume {p : Pt | i ^ 2 ≤ p.1 ^ 2 + p.2 ^ 2 ∧ p.1 ^ 2 + p.2 ^ 2 ≤ r ^ 2} = ENNReal.ofReal (annulusArea i r) ∧
    chordLength r θ = euclid (r * Real.cos (θ / 2), r * Real.sin (θ / 2)) (r * Real.cos (-(θ / 2)), r * Real.sin (-(θ / 2))) ∧
    sagitta r θ = euclid (r, 0) (r * Real.cos (θ / 2), 0) ∧
    arcLength r θ = ∫ t in (0 : ℝ)..θ, Real.sqrt (deriv (fun t => r * Real.cos t) t ^ 2 + deriv (fun t => r * Real.sin t) t ^ 2) ∧
    circumference r = arcLength r (2 * Real.pi) ∧ sectorPerimeter r θ = 2 * r + arcLength r θ ∧ segmentPerimeter r θ = arcLength r θ + chordLength r θ ∧
    meanCircumference i r = (circumference i + circumference r) / 2 ∧
    circleFromArea (circleArea r) = .ret r ∧ circleFromCircumference (circumference r) = r ∧
    (0 < r → segmentFromSagitta r (sagitta r θ) = .ret θ) := by
  have hpi := Real.pi_pos
  have hs : 0 ≤ Real.sin (θ / 2) := Real.sin_nonneg_of_nonneg_of_le_pi (by linarith) (by linarith)
  refine ⟨?_, sector_measure r θ hr h0 h1, segment_measure r θ hr h0 h1, ?_, ?_, ?_, ?_, ?_, rfl, rfl, ?_, ?_, ?_, ?_⟩
  · have := Bod.disc_area 0 0 r hr
    simpa only [sub_zero, ← pow_two, circleArea, mul_assoc] using this
  · have := Bod.ring_area 0 0 i r hi hir
    simp only [sub_zero, ← pow_two] at this
    rw [this, annulusArea]
    congr 1
    ring
  · symm
    refine euclid_of (mul_nonneg (by linarith) hs) ?_
    simp only [Real.cos_neg, Real.sin_neg, chordLength]
    ring
  · symm
    refine euclid_of (mul_nonneg hr (by linarith [Real.cos_le_one (θ / 2)])) ?_
    simp only [sagitta]
    ring
  · have hd1 : ∀ t, deriv (fun t => r * Real.cos t) t = r * -Real.sin t := fun t => ((Real.hasDerivAt_cos t).const_mul r).deriv
    have hd2 : ∀ t, deriv (fun t => r * Real.sin t) t = r * Real.cos t := fun t => ((Real.hasDerivAt_sin t).const_mul r).deriv
    have hv : ∀ t, Real.sqrt (deriv (fun t => r * Real.cos t) t ^ 2 + deriv (fun t => r * Real.sin t) t ^ 2) = r := by
      intro t
      rw [hd1, hd2, show (r * -Real.sin t) ^ 2 + (r * Real.cos t) ^ 2 = r ^ 2 * (Real.sin t ^ 2 + Real.cos t ^ 2) by ring, Real.sin_sq_add_cos_sq, mul_one,
        Real.sqrt_sq hr]
    simp only [hv]
    rw [intervalIntegral.integral_const, arcLength]
    simp [mul_comm]
  · rw [circumference, arcLength]; ring
  · rw [meanCircumference, circumference, circumference]; ring
  · refine sqrtU_ret hr ?_
    rw [circleArea]; field_simp
  · rw [circleFromCircumference, circumference]; field_simp
  · intro hr'
    rw [segmentFromSagitta, fdiv_ret hr'.ne', Outcome.bind_ret]
    have e : 1 - sagitta r θ / r = Real.cos (θ / 2) := by rw [sagitta]; field_simp; ring
    rw [e, acosU_ret (Real.neg_one_le_cos _) (Real.cos_le_one _), Outcome.bind_ret, Real.arccos_cos (by linarith) (by linarith)]
    congr 1
    ring

/-! ## Ellipses -/

/-- A case of `circle_spec`: the half of the disc with radius 2 is a segment of area `2π`, its chord is a diameter. -/
example : volume (segment 2 Real.pi) = ENNReal.ofReal (2 * Real.pi) ∧ chordLength 2 Real.pi = 4 := by
  obtain ⟨-, -, h, -⟩ := circle_spec 2 Real.pi 1 (by norm_num) Real.pi_pos.le (by linarith [Real.pi_pos]) (by norm_num) (by norm_num)
  refine ⟨?_, ?_⟩
  · rw [h, segmentArea, Real.sin_pi]
    congr 1; norm_num
  · rw [chordLength, Real.sin_pi_div_two]; norm_num


theorem ellipse_measure (a b : ℝ) (ha : 0 < a) (hb : 0 < b) :
    volume {p : Pt | (p.1 / a) ^ 2 + (p.2 / b) ^ 2 ≤ 1} = ENNReal.ofReal (ellipseArea a b) := by
  have hpi := Real.pi_pos
  have hset : {p : Pt | (p.1 / a) ^ 2 + (p.2 / b) ^ 2 ≤ 1} =
      (LinearMap.prodMap (a⁻¹ • LinearMap.id : ℝ →ₗ[ℝ] ℝ) (b⁻¹ • LinearMap.id : ℝ →ₗ[ℝ] ℝ)) ⁻¹' {q : ℝ × ℝ | (q.1 - 0) * (q.1 - 0) + (q.2 - 0) * (q.2 - 0) ≤ 1 * 1} := by
    ext p
    simp [div_eq_inv_mul, pow_two]
  have hdet : LinearMap.det (LinearMap.prodMap (a⁻¹ • LinearMap.id : ℝ →ₗ[ℝ] ℝ) (b⁻¹ • LinearMap.id : ℝ →ₗ[ℝ] ℝ)) = a⁻¹ * b⁻¹ := by
    rw [LinearMap.det_prodMap]
    simp
  rw [hset, Measure.addHaar_preimage_linearMap _ (by rw [hdet]; positivity), Bod.disc_area 0 0 1 zero_le_one, hdet, ← ENNReal.ofReal_mul (abs_nonneg _),
    abs_of_pos (by positivity), ellipseArea]
  congr 1
  field_simp

/-- **C124.**  Ellipse with semi-axes `a ≥ b > 0`: `Area` is the measure; for every point of the ellipse the distances from the two foci add up to the
major axis, and, unless the ellipse is a circle, the distance from a focus is the eccentricity times the distance from the directrix; the chord through a
focus at right angles to the major axis has half-length `SemiLatusRectum`; `FromFoci` returns the ellipse with the given foci and major axis. -/
theorem ellipse_spec (a b : ℝ) (hb : 0 < b) (hab : b ≤ a) :
    volume {p : Pt | (p.1 / a) ^ 2 + (p.2 / b) ^ 2 ≤ 1} = ENNReal.ofReal (ellipseArea a b) ∧
    ∃ c e l, linearEccentricity a b = .ret c ∧ focalDistance a b = .ret (2 * c) ∧ eccentricity a b = .ret e ∧ semiLatusRectum a b = .ret l ∧
      0 ≤ e ∧ e < 1 ∧ (e = 0 ↔ a = b) ∧ (c / a) ^ 2 + (l / b) ^ 2 = 1 ∧ 0 < l ∧ ellipseFromFoci (2 * c) (2 * a) = .ret (a, b) ∧
      (∀ p : Pt, (p.1 / a) ^ 2 + (p.2 / b) ^ 2 = 1 → euclid p (c, 0) + euclid p (-c, 0) = 2 * a) ∧
      (b < a → ∃ d, directrixDistance a b = .ret d ∧ ∀ p : Pt, (p.1 / a) ^ 2 + (p.2 / b) ^ 2 = 1 → euclid p (c, 0) = e * |d - p.1| ∧
        euclid p (-c, 0) = e * |p.1 - -d|) := by
  have ha : 0 < a := lt_of_lt_of_le hb hab
  have hc0 : 0 ≤ a * a - b * b := by nlinarith
  obtain ⟨c, hc, hcn, hc2⟩ : ∃ c, linearEccentricity a b = .ret c ∧ 0 ≤ c ∧ c ^ 2 = a * a - b * b :=
    ⟨_, by rw [linearEccentricity, Quat.sqrtU, if_neg (not_lt.2 hc0)], Real.sqrt_nonneg _, Real.sq_sqrt hc0⟩
  have hca : c < a := by nlinarith
  have he : eccentricity a b = .ret (c / a) := by
    rw [eccentricity, if_neg ha.ne', fdiv_ret (by positivity), Outcome.bind_ret]
    refine sqrtU_ret (by positivity) ?_
    rw [div_pow, hc2]; field_simp
  have hdist : ∀ p : Pt, (p.1 / a) ^ 2 + (p.2 / b) ^ 2 = 1 → euclid p (c, 0) = a - c / a * p.1 ∧ euclid p (-c, 0) = a + c / a * p.1 := by
    intro p hp
    have hx : |p.1| ≤ a := by
      have : (p.1 / a) ^ 2 ≤ 1 := by nlinarith [sq_nonneg (p.2 / b)]
      rw [div_pow, div_le_one (by positivity)] at this
      exact abs_le_of_sq_le_sq' this ha.le |> abs_le.2
    have hx2 : |c / a * p.1| ≤ a := by
      rw [abs_mul, abs_of_nonneg (by positivity)]
      calc c / a * |p.1| ≤ 1 * a := mul_le_mul (by rw [div_le_one ha]; exact hca.le) hx (abs_nonneg _) zero_le_one
        _ = a := one_mul a
    have hy : p.2 ^ 2 = b * b - b * b / (a * a) * p.1 ^ 2 := by
      rw [div_pow, div_pow] at hp
      field_simp at hp ⊢
      linarith
    have hx3 := abs_le.1 hx2
    have hsq : (c / a * p.1) ^ 2 = p.1 ^ 2 - b * b / (a * a) * p.1 ^ 2 := by
      rw [mul_pow, div_pow, hc2]; field_simp
    constructor
    · refine euclid_of (by linarith) ?_
      simp only [sub_zero]
      rw [hy, sub_sq, sub_sq, hsq, hc2]
      field_simp
      ring
    · refine euclid_of (by linarith) ?_
      simp only [sub_zero, sub_neg_eq_add]
      rw [hy, add_sq, add_sq, hsq, hc2]
      field_simp
      ring
  refine ⟨ellipse_measure a b ha hb, c, c / a, b * b / a, hc, by rw [focalDistance, hc, Outcome.bind_ret], he, fdiv_ret ha.ne', by positivity,
    by rw [div_lt_one ha]; exact hca, ?_, ?_, by positivity, ?_, fun p hp => ?_, fun hlt => ?_⟩
  · rw [div_eq_zero_iff]
    constructor
    · rintro (h | h)
      · rw [h] at hc2; nlinarith
      · exact absurd h ha.ne'
    · intro h
      left
      rw [h, sub_self] at hc2
      exact pow_eq_zero_iff (by norm_num) |>.1 hc2
  · rw [div_pow, hc2]; field_simp; ring
  · rw [ellipseFromFoci, sqrtU_ret (b := b) hb.le (by rw [show 2 * a / 2 * (2 * a / 2) - 2 * c / 2 * (2 * c / 2) = a * a - c ^ 2 by ring, hc2]; ring), Outcome.bind_ret]
    congr 2
    ring
  · obtain ⟨h1, h2⟩ := hdist p hp
    rw [h1, h2]; ring
  · have hcp : 0 < c := lt_of_le_of_ne hcn fun h => by rw [← h] at hc2; nlinarith
    refine ⟨a / (c / a), by rw [directrixDistance, he, Outcome.bind_ret, fdiv_ret (by positivity)], fun p hp => ?_⟩
    obtain ⟨h1, h2⟩ := hdist p hp
    have n1 := euclid_nonneg p (c, 0)
    have n2 := euclid_nonneg p (-c, 0)
    have e1 : c / a * (a / (c / a)) = a := by field_simp
    have hpos : 0 < c / a := by positivity
    rw [h1] at n1
    rw [h2] at n2
    constructor
    · rw [h1, ← abs_of_nonneg n1, show a - c / a * p.1 = c / a * (a / (c / a) - p.1) by rw [mul_sub, e1], abs_mul, abs_of_pos hpos]
    · rw [h2, ← abs_of_nonneg n2, show a + c / a * p.1 = c / a * (p.1 - -(a / (c / a))) by rw [mul_sub, mul_neg, e1]; ring, abs_mul, abs_of_pos hpos]

/-- A case of `ellipse_spec`: the ellipse with semi-axes 5 and 3. -/
example : linearEccentricity 5 3 = .ret 4 ∧ directrixDistance 5 3 = .ret (25 / 4) := by
  have he : eccentricity 5 3 = .ret (4 / 5) := by
    rw [eccentricity, if_neg (by norm_num), fdiv_ret (by norm_num), Outcome.bind_ret]
    exact sqrtU_ret (by norm_num) (by norm_num)
  exact ⟨sqrtU_ret (by norm_num) (by norm_num), by rw [directrixDistance, he, Outcome.bind_ret, fdiv_ret (by norm_num)]; norm_num⟩

/-- **C124, disagreements.**  An ellipse whose first semi-axis is the smaller one is valid for `IsValid`, but its eccentricity is the root of a negative
number; for a circle `DirectrixDistance` divides by zero. -/
theorem ellipse_wrong {a b : ℝ} (ha : 0 < a) (hab : a < b) :
    ellipseValid a b = true ∧ eccentricity a b = .ub ∧ linearEccentricity a b = .ub ∧ ellipseValid a a = true ∧ directrixDistance a a = .ub := by
  have hb : 0 < b := ha.trans hab
  refine ⟨by simp [ellipseValid, ha, hb], ?_, ?_, by simp [ellipseValid, ha], ?_⟩
  · rw [eccentricity, if_neg ha.ne', fdiv_ret (by positivity), Outcome.bind_ret, Quat.sqrtU, if_pos]
    rw [sub_neg, lt_div_iff₀ (by positivity)]; nlinarith
  · rw [linearEccentricity, Quat.sqrtU, if_pos (by nlinarith)]
  · have : eccentricity a a = .ret 0 := by
      rw [eccentricity, if_neg ha.ne', fdiv_ret (by positivity), Outcome.bind_ret]
      exact sqrtU_ret le_rfl (by field_simp; ring)
    rw [directrixDistance, this, Outcome.bind_ret, Interp.fdiv, if_pos rfl]

end Verif.Geom.Shp
