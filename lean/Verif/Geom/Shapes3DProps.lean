import Verif.Geom.Shapes3D
import Verif.Geom.Shapes2DPoly
import Verif.Geom.Bodies3DProps
import Mathlib.Analysis.SpecialFunctions.Arsinh
import Mathlib.Analysis.SpecialFunctions.Trigonometric.InverseDeriv
import Mathlib.MeasureTheory.Integral.IntervalIntegral.FundThmCalculus

/-!
# Properties of the solids given by lengths (C125)
-/

set_option autoImplicit false

namespace Verif.Geom.Shp
open L3 B3 Bod MeasureTheory

/-! ## Specification -/

/-- The solid of revolution about the third axis whose section at height `z` is the disc with radius `ρ z`, for `z` between `a` and `b`. -/
def rot (ρ : ℝ → ℝ) (a b : ℝ) : Set (V3 ℝ) := {p | a ≤ p.z ∧ p.z ≤ b ∧ p.x ^ 2 + p.y ^ 2 ≤ ρ p.z ^ 2}

/-- The area of the surface swept when the curve `(x t, z t)`, `t` from `a` to `b`, turns about the third axis. -/
noncomputable def swept (x z : ℝ → ℝ) (a b : ℝ) : ℝ := ∫ t in a..b, 2 * Real.pi * x t * Real.sqrt (deriv x t ^ 2 + deriv z t ^ 2)

/-- Six times the signed volume of the tetrahedron with the corners `A B C D`. -/
def det6 (A B C D : V3 ℝ) : ℝ :=
  (B.x - A.x) * ((C.y - A.y) * (D.z - A.z) - (C.z - A.z) * (D.y - A.y)) - (B.y - A.y) * ((C.x - A.x) * (D.z - A.z) - (C.z - A.z) * (D.x - A.x)) +
    (B.z - A.z) * ((C.x - A.x) * (D.y - A.y) - (C.y - A.y) * (D.x - A.x))

/-- The area of the triangle `A B C` in space. -/
noncomputable def triArea (A B C : V3 ℝ) : ℝ :=
  Real.sqrt (((B.y - A.y) * (C.z - A.z) - (B.z - A.z) * (C.y - A.y)) ^ 2 + ((B.z - A.z) * (C.x - A.x) - (B.x - A.x) * (C.z - A.z)) ^ 2 +
    ((B.x - A.x) * (C.y - A.y) - (B.y - A.y) * (C.x - A.x)) ^ 2) / 2

/-- The six distances of four points. -/
noncomputable def edges (A B C D : V3 ℝ) : Tet := ⟨eucl A B, eucl A C, eucl A D, eucl B C, eucl B D, eucl C D⟩

/-! ## Volumes -/

theorem between_iff (x c : ℝ) (hc : 0 ≤ c) : -c ≤ x ∧ x ≤ c ↔ x ^ 2 ≤ c ^ 2 := by
  rw [← abs_le, sq_le_sq, abs_of_nonneg hc]

theorem le_of_sq {x c : ℝ} (hc : 0 ≤ c) (h : x ^ 2 ≤ c ^ 2) : x ≤ c := ((between_iff x c hc).2 h).2

theorem rot_vol (ρ : ℝ → ℝ) (hρ : Continuous ρ) (a b : ℝ) (hab : a ≤ b) (h0 : ∀ z ∈ Set.Icc a b, 0 ≤ ρ z) :
    vol (rot ρ a b) = ENNReal.ofReal (∫ z in a..b, Real.pi * ρ z ^ 2) := by
  have hpi := Real.pi_pos
  refine vol_of_slices _ ?_ a b hab _ (by fun_prop) (fun z _ => by positivity) (fun z hz => ?_) (fun z hz x y h => hz ⟨h.1, h.2.1⟩)
  · have : zFirst (rot ρ a b) = {q : ℝ × ℝ × ℝ | a ≤ q.1} ∩ ({q : ℝ × ℝ × ℝ | q.1 ≤ b} ∩ {q : ℝ × ℝ × ℝ | q.2.1 ^ 2 + q.2.2 ^ 2 ≤ ρ q.1 ^ 2}) := by
      ext q; simp [zFirst, rot]
    rw [this]
    refine ((isClosed_le (by fun_prop) (by fun_prop)).inter ((isClosed_le (by fun_prop) (by fun_prop)).inter (isClosed_le (by fun_prop) (by fun_prop)))).measurableSet
  · rw [show Real.pi * ρ z ^ 2 = Real.pi * ρ z * ρ z by ring, ← disc_area 0 0 (ρ z) (h0 z hz)]
    congr 1
    ext q
    simp only [rot, Set.mem_setOf_eq, hz.1, hz.2, true_and, sub_zero, sq]

/-- **C125.**  Volumes of revolution: cylinder, cone, frustum, spheroid (its poles on the axis), the cap of height `h` of a sphere, and the torus. -/
theorem volume_spec (r h r1 r2 a c R : ℝ) (hr : 0 < r) (hh : 0 < h) (h1 : 0 ≤ r1) (h2 : 0 ≤ r2) (ha : 0 < a) (hc : 0 < c) (hR : r ≤ R) :
    vol {p | 0 ≤ p.z ∧ p.z ≤ h ∧ p.x ^ 2 + p.y ^ 2 ≤ r ^ 2} = ENNReal.ofReal (cylVolume r h) ∧
    vol {p | 0 ≤ p.z ∧ p.z ≤ h ∧ p.x ^ 2 + p.y ^ 2 ≤ (r * (1 - p.z / h)) ^ 2} = ENNReal.ofReal (coneVolume r h) ∧
    vol {p | 0 ≤ p.z ∧ p.z ≤ h ∧ p.x ^ 2 + p.y ^ 2 ≤ (r1 + (r2 - r1) * (p.z / h)) ^ 2} = ENNReal.ofReal (frustumVolume r1 r2 h) ∧
    vol {p | (p.x ^ 2 + p.y ^ 2) / a ^ 2 + p.z ^ 2 / c ^ 2 ≤ 1} = ENNReal.ofReal (spheroidVolume a c) ∧
    vol {p | eucl ⟨0, 0, 0⟩ p ≤ r} = ENNReal.ofReal (sphereVolume r) ∧
    (h ≤ 2 * r → vol {p | eucl ⟨0, 0, 0⟩ p ≤ r ∧ r - h ≤ p.z} = ENNReal.ofReal (capVolume r h)) ∧
    vol {p | (Real.sqrt (p.x ^ 2 + p.y ^ 2) - R) ^ 2 + p.z ^ 2 ≤ r ^ 2} = ENNReal.ofReal (torusVolume R r) := by
  have hpi := Real.pi_pos
  refine ⟨?_, ?_, ?_, ?_, vol_ball _ _ hr.le, fun hle => ?_, ?_⟩
  · rw [show {p : V3 ℝ | 0 ≤ p.z ∧ p.z ≤ h ∧ p.x ^ 2 + p.y ^ 2 ≤ r ^ 2} = rot (fun _ => r) 0 h from rfl, rot_vol _ (by fun_prop) 0 h hh.le fun _ _ => hr.le]
    congr 1
    simp [cylVolume]; ring
  · rw [show {p : V3 ℝ | 0 ≤ p.z ∧ p.z ≤ h ∧ p.x ^ 2 + p.y ^ 2 ≤ (r * (1 - p.z / h)) ^ 2} = rot (fun z => r * (1 - z / h)) 0 h from rfl,
      rot_vol _ (by fun_prop) 0 h hh.le fun z hz => mul_nonneg hr.le (by rw [sub_nonneg, div_le_one hh]; exact hz.2)]
    congr 1
    have : ∀ z, HasDerivAt (fun z => Real.pi * r ^ 2 * (z - z ^ 2 / h + z ^ 3 / (3 * h ^ 2))) (Real.pi * (r * (1 - z / h)) ^ 2) z := fun z => by
      have := (((hasDerivAt_id z).sub ((hasDerivAt_pow 2 z).div_const h)).add ((hasDerivAt_pow 3 z).div_const (3 * h ^ 2))).const_mul (Real.pi * r ^ 2)
      refine HasDerivAt.congr_deriv this ?_
      simp; field_simp; ring
    rw [intervalIntegral.integral_eq_sub_of_hasDerivAt (fun z _ => this z) (Continuous.intervalIntegrable (by fun_prop) _ _)]
    simp [coneVolume]; field_simp; ring
  · rw [show {p : V3 ℝ | 0 ≤ p.z ∧ p.z ≤ h ∧ p.x ^ 2 + p.y ^ 2 ≤ (r1 + (r2 - r1) * (p.z / h)) ^ 2} = rot (fun z => r1 + (r2 - r1) * (z / h)) 0 h from rfl,
      rot_vol _ (by fun_prop) 0 h hh.le fun z hz => by
        have e1 : 0 ≤ z / h := div_nonneg hz.1 hh.le
        have e2 : z / h ≤ 1 := by rw [div_le_one hh]; exact hz.2
        nlinarith [mul_nonneg h1 (sub_nonneg.2 e2), mul_nonneg h2 e1]]
    congr 1
    have : ∀ z, HasDerivAt (fun z => Real.pi * (r1 ^ 2 * z + r1 * (r2 - r1) * z ^ 2 / h + (r2 - r1) ^ 2 * z ^ 3 / (3 * h ^ 2)))
        (Real.pi * (r1 + (r2 - r1) * (z / h)) ^ 2) z := fun z => by
      have := (((((hasDerivAt_id z).const_mul (r1 ^ 2)).add (((hasDerivAt_pow 2 z).const_mul (r1 * (r2 - r1))).div_const h)).add
        (((hasDerivAt_pow 3 z).const_mul ((r2 - r1) ^ 2)).div_const (3 * h ^ 2))).const_mul Real.pi)
      refine HasDerivAt.congr_deriv this ?_
      simp; field_simp; ring
    rw [intervalIntegral.integral_eq_sub_of_hasDerivAt (fun z _ => this z) (Continuous.intervalIntegrable (by fun_prop) _ _)]
    simp [frustumVolume]; field_simp; ring
  · have hset : {p : V3 ℝ | (p.x ^ 2 + p.y ^ 2) / a ^ 2 + p.z ^ 2 / c ^ 2 ≤ 1} = rot (fun z => a * Real.sqrt (1 - z ^ 2 / c ^ 2)) (-c) c := by
      ext p
      simp only [rot, Set.mem_setOf_eq]
      have key : -c ≤ p.z ∧ p.z ≤ c ↔ 0 ≤ 1 - p.z ^ 2 / c ^ 2 := by
        rw [sub_nonneg, div_le_one (by positivity), between_iff _ _ hc.le]
      constructor
      · intro hp
        have e1 : 0 ≤ (p.x ^ 2 + p.y ^ 2) / a ^ 2 := by positivity
        have e2 : 0 ≤ 1 - p.z ^ 2 / c ^ 2 := by linarith
        refine ⟨(key.2 e2).1, (key.2 e2).2, ?_⟩
        rw [mul_pow, Real.sq_sqrt e2]
        have : (p.x ^ 2 + p.y ^ 2) / a ^ 2 ≤ 1 - p.z ^ 2 / c ^ 2 := by linarith
        rw [div_le_iff₀ (by positivity)] at this
        linarith
      · rintro ⟨h1, h2, h3⟩
        have e2 := key.1 ⟨h1, h2⟩
        rw [mul_pow, Real.sq_sqrt e2] at h3
        have : (p.x ^ 2 + p.y ^ 2) / a ^ 2 ≤ 1 - p.z ^ 2 / c ^ 2 := by
          rw [div_le_iff₀ (by positivity)]; linarith
        linarith
    rw [hset, rot_vol _ (by fun_prop) _ _ (by linarith) fun z _ => by positivity]
    congr 1
    have hcg : ∫ z in (-c)..c, Real.pi * (a * Real.sqrt (1 - z ^ 2 / c ^ 2)) ^ 2 = ∫ z in (-c)..c, Real.pi * a ^ 2 * (1 - z ^ 2 / c ^ 2) := by
      refine intervalIntegral.integral_congr fun z hz => ?_
      rw [Set.uIcc_of_le (by linarith)] at hz
      have : 0 ≤ 1 - z ^ 2 / c ^ 2 := by
        rw [sub_nonneg, div_le_one (by positivity), ← between_iff _ _ hc.le]; exact hz
      rw [mul_pow, Real.sq_sqrt this]; ring
    have : ∀ z, HasDerivAt (fun z => Real.pi * a ^ 2 * (z - z ^ 3 / (3 * c ^ 2))) (Real.pi * a ^ 2 * (1 - z ^ 2 / c ^ 2)) z := fun z => by
      have := ((hasDerivAt_id z).sub ((hasDerivAt_pow 3 z).div_const (3 * c ^ 2))).const_mul (Real.pi * a ^ 2)
      refine HasDerivAt.congr_deriv this ?_
      simp; field_simp; simp
    rw [hcg, intervalIntegral.integral_eq_sub_of_hasDerivAt (fun z _ => this z) (Continuous.intervalIntegrable (by fun_prop) _ _)]
    simp [spheroidVolume]; field_simp; ring
  · have hset : {p : V3 ℝ | eucl ⟨0, 0, 0⟩ p ≤ r ∧ r - h ≤ p.z} = rot (fun z => Real.sqrt (r ^ 2 - z ^ 2)) (r - h) r := by
      ext p
      simp only [rot, Set.mem_setOf_eq, eucl, Real.sqrt_le_iff, hr.le, true_and, zero_sub, neg_sq]
      constructor
      · rintro ⟨h1, h2⟩
        have : p.z ≤ r := le_of_sq hr.le (by nlinarith [sq_nonneg p.x, sq_nonneg p.y])
        refine ⟨h2, this, ?_⟩
        rw [Real.sq_sqrt (by nlinarith [sq_nonneg p.x, sq_nonneg p.y])]
        linarith
      · rintro ⟨h1, h2, h3⟩
        have : 0 ≤ r ^ 2 - p.z ^ 2 := by nlinarith [mul_nonneg (by linarith : 0 ≤ r - p.z) (by linarith : 0 ≤ r + p.z)]
        rw [Real.sq_sqrt this] at h3
        exact ⟨by linarith, h1⟩
    rw [hset, rot_vol _ (by fun_prop) _ _ (by linarith) fun z _ => Real.sqrt_nonneg _]
    congr 1
    have hcg : ∫ z in (r - h)..r, Real.pi * Real.sqrt (r ^ 2 - z ^ 2) ^ 2 = ∫ z in (r - h)..r, Real.pi * (r ^ 2 - z ^ 2) := by
      refine intervalIntegral.integral_congr fun z hz => ?_
      rw [Set.uIcc_of_le (by linarith)] at hz
      have : 0 ≤ r ^ 2 - z ^ 2 := by nlinarith [mul_nonneg (by linarith [hz.2] : 0 ≤ r - z) (by linarith [hz.1] : 0 ≤ r + z)]
      rw [Real.sq_sqrt this]
    have : ∀ z, HasDerivAt (fun z => Real.pi * (r ^ 2 * z - z ^ 3 / 3)) (Real.pi * (r ^ 2 - z ^ 2)) z := fun z => by
      have := (((hasDerivAt_id z).const_mul (r ^ 2)).sub ((hasDerivAt_pow 3 z).div_const 3)).const_mul Real.pi
      refine HasDerivAt.congr_deriv this ?_
      simp
    rw [hcg, intervalIntegral.integral_eq_sub_of_hasDerivAt (fun z _ => this z) (Continuous.intervalIntegrable (by fun_prop) _ _)]
    simp [capVolume]; ring
  · have := (torus_describes ⟨R, r, ⟨0, 0, 0⟩, 20, 12⟩ hr.le hR).vol_eq
    rw [show torusVolume R r = Torus.volume ⟨R, r, ⟨0, 0, 0⟩, 20, 12⟩ from rfl, ← this]
    congr 1
    ext p
    simp only [Set.mem_setOf_eq]
    rw [torus_inside _ hr.le]
    simp only [sub_zero, axisDist, ← sq]

/-! ## Areas of surfaces -/

theorem deriv_sin_mul (r t : ℝ) : deriv (fun t => r * Real.sin t) t = r * Real.cos t := ((Real.hasDerivAt_sin t).const_mul r).deriv

theorem deriv_cos_mul (r t : ℝ) : deriv (fun t => r * Real.cos t) t = r * -Real.sin t := ((Real.hasDerivAt_cos t).const_mul r).deriv

theorem swept_circle (r a b : ℝ) (hr : 0 ≤ r) : swept (fun t => r * Real.sin t) (fun t => r * Real.cos t) a b = 2 * Real.pi * r * (r * Real.cos a - r * Real.cos b) := by
  rw [swept]
  have : ∀ t, 2 * Real.pi * (r * Real.sin t) * Real.sqrt (deriv (fun t => r * Real.sin t) t ^ 2 + deriv (fun t => r * Real.cos t) t ^ 2) =
      2 * Real.pi * r * r * Real.sin t := fun t => by
    rw [deriv_sin_mul, deriv_cos_mul, show (r * Real.cos t) ^ 2 + (r * -Real.sin t) ^ 2 = r ^ 2 by linear_combination r ^ 2 * Real.sin_sq_add_cos_sq t,
      Real.sqrt_sq hr]
    ring
  simp only [this]
  rw [intervalIntegral.integral_const_mul, integral_sin]
  ring

theorem swept_line (p q u v : ℝ) : swept (fun t => p + q * t) (fun t => u + v * t) 0 1 = Real.pi * (p + (p + q)) * Real.sqrt (q ^ 2 + v ^ 2) := by
  rw [swept]
  have d : ∀ p q t : ℝ, deriv (fun t => p + q * t) t = q := fun p q t => by
    have := ((hasDerivAt_id t).const_mul q).const_add p
    simpa using this.deriv
  simp only [d]
  have : ∀ t, HasDerivAt (fun t => 2 * Real.pi * (p * t + q * t ^ 2 / 2) * Real.sqrt (q ^ 2 + v ^ 2)) (2 * Real.pi * (p + q * t) * Real.sqrt (q ^ 2 + v ^ 2)) t := fun t => by
    have := (((((hasDerivAt_id t).const_mul p).add (((hasDerivAt_pow 2 t).const_mul q).div_const 2)).const_mul (2 * Real.pi)).mul_const (Real.sqrt (q ^ 2 + v ^ 2)))
    refine HasDerivAt.congr_deriv this ?_
    simp; ring_nf; simp
  rw [intervalIntegral.integral_eq_sub_of_hasDerivAt (fun t _ => this t) (Continuous.intervalIntegrable (by fun_prop) _ _)]
  ring

/-- **C125.**  Areas of surfaces of revolution: the zone of a sphere between two heights, the cap and the whole sphere; cylinder, cone and frustum, whose
surface has the lateral part and the discs; the torus. -/
theorem surface_spec (r h r1 r2 z1 z2 R : ℝ) (hr : 0 < r) (hh : 0 < h) (h1 : -r ≤ z1) (h12 : z1 ≤ z2) (h2 : z2 ≤ r) :
    zoneArea r (z2 - z1) = swept (fun t => r * Real.sin t) (fun t => r * Real.cos t) (Real.arccos (z2 / r)) (Real.arccos (z1 / r)) ∧
    (h ≤ 2 * r → capArea r h = swept (fun t => r * Real.sin t) (fun t => r * Real.cos t) 0 (Real.arccos ((r - h) / r))) ∧
    sphereSurface r = swept (fun t => r * Real.sin t) (fun t => r * Real.cos t) 0 Real.pi ∧
    cylLateral r h = swept (fun t => r + 0 * t) (fun t => 0 + h * t) 0 1 ∧ coneLateral r h = swept (fun t => r + -r * t) (fun t => 0 + h * t) 0 1 ∧
    frustumLateral r1 r2 h = swept (fun t => r1 + (r2 - r1) * t) (fun t => 0 + h * t) 0 1 ∧
    cylSurface r h = cylLateral r h + 2 * circleArea r ∧ coneSurface r h = coneLateral r h + circleArea r ∧
    frustumSurface r1 r2 h = frustumLateral r1 r2 h + circleArea r1 + circleArea r2 ∧
    torusSurface R r = swept (fun t => R + r * Real.cos t) (fun t => r * Real.sin t) 0 (2 * Real.pi) := by
  have hpi := Real.pi_pos
  refine ⟨?_, fun hle => ?_, ?_, ?_, ?_, ?_, ?_, ?_, ?_, ?_⟩
  · rw [swept_circle _ _ _ hr.le, Real.cos_arccos (by rw [le_div_iff₀ hr]; linarith) (by rw [div_le_one hr]; exact h2),
      Real.cos_arccos (by rw [le_div_iff₀ hr]; linarith) (by rw [div_le_one hr]; linarith), zoneArea]
    field_simp
  · rw [swept_circle _ _ _ hr.le, Real.cos_arccos (by rw [le_div_iff₀ hr]; linarith) (by rw [div_le_one hr]; linarith), Real.cos_zero, capArea]
    field_simp
    ring
  · rw [swept_circle _ _ _ hr.le, Real.cos_zero, Real.cos_pi, sphereSurface]; ring
  · rw [swept_line, show (0 : ℝ) ^ 2 + h ^ 2 = h ^ 2 by ring, Real.sqrt_sq hh.le, cylLateral]; ring
  · rw [swept_line, coneLateral, coneSlant, show (-r) ^ 2 + h ^ 2 = r * r + h * h by ring]; ring
  · rw [swept_line, frustumLateral, frustumSlant, show (r2 - r1) ^ 2 + h ^ 2 = (r1 - r2) * (r1 - r2) + h * h by ring]; ring
  · rw [cylSurface, baseArea, circleArea]
  · rw [coneSurface, baseArea, circleArea]
  · rw [frustumSurface, circleArea, circleArea]; ring
  · rw [swept]
    have d1 : ∀ t, deriv (fun t => R + r * Real.cos t) t = r * -Real.sin t := fun t => (((Real.hasDerivAt_cos t).const_mul r).const_add R).deriv
    have : ∀ t, 2 * Real.pi * (R + r * Real.cos t) * Real.sqrt (deriv (fun t => R + r * Real.cos t) t ^ 2 + deriv (fun t => r * Real.sin t) t ^ 2) =
        2 * Real.pi * R * r + 2 * Real.pi * r * r * Real.cos t := fun t => by
      rw [deriv_sin_mul, d1, show (r * -Real.sin t) ^ 2 + (r * Real.cos t) ^ 2 = r ^ 2 by linear_combination r ^ 2 * Real.sin_sq_add_cos_sq t, Real.sqrt_sq hr.le]
      ring
    simp only [this]
    rw [intervalIntegral.integral_add (Continuous.intervalIntegrable (by fun_prop) _ _) (Continuous.intervalIntegrable (by fun_prop) _ _),
      intervalIntegral.integral_const, intervalIntegral.integral_const_mul, integral_cos, Real.sin_two_pi, Real.sin_zero, torusSurface]
    simp; ring

theorem cbrt_cube {x : ℝ} (hx : 0 ≤ x) : cbrt (x ^ 3) = x := by
  rw [cbrt, if_pos (by positivity), ← Real.rpow_natCast, ← Real.rpow_mul hx]
  norm_num

/-- **C125.**  The named constructors: the sphere, cylinder and cone with the volume, surface, slant height given; the sphere about a box touches its
corners; the half-angle at the apex; errors outside. -/
theorem solid_make (v r h l w d : ℝ) (hv : 0 ≤ v) (hr : 0 < r) (hh : 0 < h) :
    sphereVolume (sphereFromVolume v) = v ∧ 0 ≤ sphereFromVolume v ∧ (∃ x, sphereFromSurface v = .ret x ∧ 0 ≤ x ∧ sphereSurface x = v) ∧
    (∃ x, cylFromVolume v r = .ret x ∧ cylVolume r x = v) ∧ cylFromVolume v 0 = .ub ∧
    (r ≤ l → ∃ x, coneFromSlant r l = .ret x ∧ 0 ≤ x ∧ coneSlant r x = l) ∧ (0 ≤ l → l < r → coneFromSlant r l = .ub) ∧
    (∃ x, apexAngle r h = .ret x ∧ 0 < x ∧ x < Real.pi / 2 ∧ Real.tan x = r / h ∧ Real.sin x * coneSlant r h = r ∧ Real.cos x * coneSlant r h = h) ∧
    (∀ sx ∈ [-1, (1 : ℝ)], ∀ sy ∈ [-1, (1 : ℝ)], ∀ sz ∈ [-1, (1 : ℝ)],
      eucl ⟨0, 0, 0⟩ ⟨sx * w / 2, sy * h / 2, sz * d / 2⟩ = sphereCircumscribed w h d) := by
  have hpi := Real.pi_pos
  have hq : 0 ≤ 3 * v / (4 * Real.pi) := by positivity
  have hc : cbrt (3 * v / (4 * Real.pi)) ^ 3 = 3 * v / (4 * Real.pi) := by
    rw [cbrt, if_pos hq, ← Real.rpow_natCast, ← Real.rpow_mul hq]
    norm_num
  have hs : 0 < coneSlant r h := Real.sqrt_pos.2 (by positivity)
  have hs2 : coneSlant r h ^ 2 = r * r + h * h := Real.sq_sqrt (by positivity)
  refine ⟨?_, ?_, ?_, ?_, ?_, ?_, ?_, ?_, ?_⟩
  · rw [sphereVolume, sphereFromVolume, show ∀ x : ℝ, 4 / 3 * Real.pi * x * x * x = 4 / 3 * Real.pi * x ^ 3 from fun x => by ring, hc]
    field_simp
  · rw [sphereFromVolume, cbrt, if_pos hq]
    positivity
  · have h1 : 0 ≤ v / (4 * Real.pi) := by positivity
    refine ⟨Real.sqrt (v / (4 * Real.pi)), by rw [sphereFromSurface, Quat.sqrtU, if_neg (not_lt.2 h1)], Real.sqrt_nonneg _, ?_⟩
    rw [sphereSurface, mul_assoc, Real.mul_self_sqrt h1]
    field_simp
  · refine ⟨_, fdiv_ret (by positivity), ?_⟩
    rw [cylVolume]
    field_simp
  · rw [cylFromVolume, Interp.fdiv]
    simp
  · intro hle
    have h1 : 0 ≤ l * l - r * r := by nlinarith
    refine ⟨Real.sqrt (l * l - r * r), by rw [coneFromSlant, Quat.sqrtU, if_neg (not_lt.2 h1)], Real.sqrt_nonneg _, ?_⟩
    rw [coneSlant, Real.mul_self_sqrt h1, show r * r + (l * l - r * r) = l ^ 2 by ring, Real.sqrt_sq (by linarith)]
  · intro hl hlt
    rw [coneFromSlant, Quat.sqrtU, if_pos (by nlinarith)]
  · refine ⟨Real.arctan (r / h), by rw [apexAngle, fdiv_ret hh.ne', Outcome.bind_ret], Real.arctan_pos.2 (by positivity), Real.arctan_lt_pi_div_two _,
      Real.tan_arctan _, ?_, ?_⟩
    · have e : Real.sqrt (1 + (r / h) ^ 2) = coneSlant r h / h := by
        rw [show 1 + (r / h) ^ 2 = (coneSlant r h / h) ^ 2 by rw [div_pow, div_pow, hs2]; field_simp; ring, Real.sqrt_sq (by positivity)]
      rw [Real.sin_arctan, e]
      field_simp
    · have e : Real.sqrt (1 + (r / h) ^ 2) = coneSlant r h / h := by
        rw [show 1 + (r / h) ^ 2 = (coneSlant r h / h) ^ 2 by rw [div_pow, div_pow, hs2]; field_simp; ring, Real.sqrt_sq (by positivity)]
      rw [Real.cos_arctan, e]
      field_simp
  · have hd : Real.sqrt (w * w + h * h + d * d) ^ 2 = w * w + h * h + d * d :=
      Real.sq_sqrt (add_nonneg (add_nonneg (mul_self_nonneg _) (mul_self_nonneg _)) (mul_self_nonneg _))
    intro sx hx sy hy sz hz
    simp only [List.mem_cons, List.not_mem_nil, or_false] at hx hy hz
    rw [eucl, sphereCircumscribed, Real.sqrt_eq_iff_eq_sq (by positivity) (by positivity), div_pow, hd]
    rcases hx with rfl | rfl <;> rcases hy with rfl | rfl <;> rcases hz with rfl | rfl <;> ring

/-! ## Spheroid -/

theorem swept_spheroid (a c : ℝ) (ha : 0 < a) (F : ℝ → ℝ) (hF : ∀ u ∈ Set.Icc (-1 : ℝ) 1, HasDerivAt F (Real.sqrt (c ^ 2 + (a ^ 2 - c ^ 2) * u ^ 2)) u) :
    swept (fun t => a * Real.sin t) (fun t => c * Real.cos t) 0 Real.pi = 2 * Real.pi * a * (F 1 - F (-1)) := by
  rw [swept]
  have : ∀ t, HasDerivAt (fun t => -(2 * Real.pi * a * F (Real.cos t)))
      (2 * Real.pi * (a * Real.sin t) * Real.sqrt (deriv (fun t => a * Real.sin t) t ^ 2 + deriv (fun t => c * Real.cos t) t ^ 2)) t := fun t => by
    have h1 := ((hF (Real.cos t) ⟨Real.neg_one_le_cos t, Real.cos_le_one t⟩).comp t (Real.hasDerivAt_cos t)).const_mul (2 * Real.pi * a)
    refine HasDerivAt.congr_deriv h1.neg ?_
    rw [deriv_sin_mul, deriv_cos_mul, show (a * Real.cos t) ^ 2 + (c * -Real.sin t) ^ 2 = c ^ 2 + (a ^ 2 - c ^ 2) * Real.cos t ^ 2 by
      linear_combination c ^ 2 * Real.sin_sq_add_cos_sq t]
    ring
  rw [intervalIntegral.integral_eq_sub_of_hasDerivAt (fun t _ => this t) ?_]
  · simp; ring
  · simp only [deriv_sin_mul, deriv_cos_mul]
    exact Continuous.intervalIntegrable (by fun_prop) _ _

/-- The antiderivative for the oblate spheroid. -/
theorem oblate_anti (c m u : ℝ) (hc : 0 < c) (hm : 0 < m) :
    HasDerivAt (fun u => (u * Real.sqrt (c ^ 2 + m ^ 2 * u ^ 2) + c ^ 2 / m * Real.arsinh (m * u / c)) / 2) (Real.sqrt (c ^ 2 + m ^ 2 * u ^ 2)) u := by
  have hp : 0 < c ^ 2 + m ^ 2 * u ^ 2 := by positivity
  have hs := Real.sqrt_pos.2 hp
  have hs2 : Real.sqrt (c ^ 2 + m ^ 2 * u ^ 2) ^ 2 = c ^ 2 + m ^ 2 * u ^ 2 := Real.sq_sqrt hp.le
  have i1 : HasDerivAt (fun u : ℝ => c ^ 2 + m ^ 2 * u ^ 2) (m ^ 2 * (2 * u)) u := by
    have := ((hasDerivAt_pow 2 u).const_mul (m ^ 2)).const_add (c ^ 2)
    refine HasDerivAt.congr_deriv this ?_
    simp
  have i2 := i1.sqrt hp.ne'
  have i3 : HasDerivAt (fun u : ℝ => m * u / c) (m / c) u := by
    have := ((hasDerivAt_id u).const_mul m).div_const c
    refine HasDerivAt.congr_deriv this ?_
    simp
  have i4 := i3.arsinh
  have e : Real.sqrt (1 + (m * u / c) ^ 2) = Real.sqrt (c ^ 2 + m ^ 2 * u ^ 2) / c := by
    rw [show 1 + (m * u / c) ^ 2 = (Real.sqrt (c ^ 2 + m ^ 2 * u ^ 2) / c) ^ 2 by rw [div_pow, div_pow, hs2]; field_simp, Real.sqrt_sq (by positivity)]
  rw [e] at i4
  refine HasDerivAt.congr_deriv ((((hasDerivAt_id u).mul i2).add (i4.const_mul (c ^ 2 / m))).div_const 2) ?_
  simp only [id, smul_eq_mul]
  generalize Real.sqrt (c ^ 2 + m ^ 2 * u ^ 2) = s at *
  field_simp
  linear_combination -hs2

/-- The antiderivative for the prolate spheroid. -/
theorem prolate_anti (c m u : ℝ) (hc : 0 < c) (hm : 0 < m) (hmc : m < c) (hu : -1 ≤ u) (hu1 : u ≤ 1) :
    HasDerivAt (fun u => (u * Real.sqrt (c ^ 2 - m ^ 2 * u ^ 2) + c ^ 2 / m * Real.arcsin (m * u / c)) / 2) (Real.sqrt (c ^ 2 - m ^ 2 * u ^ 2)) u := by
  have hu2 : u ^ 2 ≤ 1 := by nlinarith
  have hm2 : m ^ 2 < c ^ 2 := by nlinarith
  have hp : 0 < c ^ 2 - m ^ 2 * u ^ 2 := by nlinarith [sq_nonneg m]
  have hs := Real.sqrt_pos.2 hp
  have hs2 : Real.sqrt (c ^ 2 - m ^ 2 * u ^ 2) ^ 2 = c ^ 2 - m ^ 2 * u ^ 2 := Real.sq_sqrt hp.le
  have i1 : HasDerivAt (fun u : ℝ => c ^ 2 - m ^ 2 * u ^ 2) (-(m ^ 2 * (2 * u))) u := by
    have := ((hasDerivAt_pow 2 u).const_mul (m ^ 2)).const_sub (c ^ 2)
    refine HasDerivAt.congr_deriv this ?_
    simp
  have i2 := i1.sqrt hp.ne'
  have i3 : HasDerivAt (fun u : ℝ => m * u / c) (m / c) u := by
    have := ((hasDerivAt_id u).const_mul m).div_const c
    refine HasDerivAt.congr_deriv this ?_
    simp
  have hlt : m * u / c < 1 := by rw [div_lt_one hc]; nlinarith
  have hgt : -1 < m * u / c := by rw [lt_div_iff₀ hc]; nlinarith
  have i4 := (Real.hasDerivAt_arcsin hgt.ne' hlt.ne).comp u i3
  have e : Real.sqrt (1 - (m * u / c) ^ 2) = Real.sqrt (c ^ 2 - m ^ 2 * u ^ 2) / c := by
    rw [show 1 - (m * u / c) ^ 2 = (Real.sqrt (c ^ 2 - m ^ 2 * u ^ 2) / c) ^ 2 by rw [div_pow, div_pow, hs2]; field_simp, Real.sqrt_sq (by positivity)]
  rw [e] at i4
  refine HasDerivAt.congr_deriv ((((hasDerivAt_id u).mul i2).add (i4.const_mul (c ^ 2 / m))).div_const 2) ?_
  simp only [id]
  generalize Real.sqrt (c ^ 2 - m ^ 2 * u ^ 2) = s at *
  field_simp
  linear_combination -hs2

theorem near_iff (a b eps : ℝ) : near a b eps = true ↔ |a - b| < eps := by simp [near]

theorem ecc_ret {x y : ℝ} (hx : 0 < x) (hy : 0 ≤ y) (hyx : y ≤ x) : ∃ e, eccOf x y = .ret e ∧ 0 ≤ e ∧ e ^ 2 * x ^ 2 = x ^ 2 - y ^ 2 := by
  have hp : 0 ≤ 1 - y * y / (x * x) := by
    rw [sub_nonneg, div_le_one (by positivity)]; nlinarith
  refine ⟨Real.sqrt (1 - y * y / (x * x)), by rw [eccOf, fdiv_ret (by positivity), Outcome.bind_ret, Quat.sqrtU, if_neg (not_lt.2 hp)], Real.sqrt_nonneg _, ?_⟩
  rw [Real.sq_sqrt hp]
  field_simp

/-- **C125.**  Spheroid with positive radii: flattening and eccentricity; the area is that of the surface swept by the half ellipse, for a sphere and
for every spheroid whose radii differ by at least the tolerance (between, the area of the sphere with the equatorial radius is returned). -/
theorem spheroid_spec (a c eps : ℝ) (ha : 0 < a) (hc : 0 < c) :
    flattening a c = .ret (1 - c / a) ∧
    (∃ e, spheroidEcc a c = .ret e ∧ 0 ≤ e ∧ e < 1 ∧ e ^ 2 * max a c ^ 2 = max a c ^ 2 - min a c ^ 2) ∧
    (|a - c| < eps → spheroidArea a c eps = .ret (sphereSurface a)) ∧
    (a = c ∧ 0 < eps ∨ 0 < eps ∧ eps ≤ |a - c| → spheroidArea a c eps = .ret (swept (fun t => a * Real.sin t) (fun t => c * Real.cos t) 0 Real.pi)) := by
  have hpi := Real.pi_pos
  have hecc : ∃ e, spheroidEcc a c = .ret e ∧ 0 ≤ e ∧ e < 1 ∧ e ^ 2 * max a c ^ 2 = max a c ^ 2 - min a c ^ 2 := by
    rw [spheroidEcc]
    by_cases h : c < a
    · obtain ⟨e, h1, h2, h3⟩ := ecc_ret ha hc.le h.le
      rw [if_pos h, max_eq_left h.le, min_eq_right h.le]
      refine ⟨e, h1, h2, ?_, h3⟩
      by_contra hge
      have : 1 ≤ e ^ 2 := by nlinarith
      nlinarith [sq_nonneg a, sq_pos_of_pos hc]
    · obtain ⟨e, h1, h2, h3⟩ := ecc_ret hc ha.le (not_lt.1 h)
      rw [if_neg h, max_eq_right (not_lt.1 h), min_eq_left (not_lt.1 h)]
      refine ⟨e, h1, h2, ?_, h3⟩
      by_contra hge
      have : 1 ≤ e ^ 2 := by nlinarith
      nlinarith [sq_nonneg c, sq_pos_of_pos ha]
  have hnear : |a - c| < eps → spheroidArea a c eps = .ret (sphereSurface a) := fun h => by
    rw [spheroidArea, if_pos ((near_iff _ _ _).2 h), sphereSurface]
  refine ⟨?_, hecc, hnear, ?_⟩
  · rw [flattening, fdiv_ret ha.ne']
    congr 1; field_simp
  · rintro (⟨rfl, he⟩ | ⟨he, hge⟩)
    · rw [hnear (by simpa using he), swept_circle _ _ _ ha.le, sphereSurface, Real.cos_zero, Real.cos_pi]
      congr 1; ring
    · have hnn : ¬ near a c eps = true := by rw [near_iff]; linarith
      rw [spheroidArea, if_neg hnn]
      obtain ⟨e, h1, h2, h3, h4⟩ := hecc
      by_cases h : c < a
      · rw [if_pos h, oblateArea, h1, Outcome.bind_ret]
        rw [max_eq_left h.le, min_eq_right h.le] at h4
        have he0 : 0 < e := by
          rcases h2.lt_or_eq with h5 | h5
          · exact h5
          · rw [← h5] at h4; nlinarith
        rw [fdiv_ret he0.ne', Outcome.bind_ret, atanhU, if_neg (by push Not; exact ⟨by linarith, h3⟩), Outcome.bind_ret]
        have hm : 0 < a * e := by positivity
        have hm2 : (a * e) ^ 2 = a ^ 2 - c ^ 2 := by linarith
        rw [swept_spheroid a c ha (fun u => (u * Real.sqrt (c ^ 2 + (a * e) ^ 2 * u ^ 2) + c ^ 2 / (a * e) * Real.arsinh (a * e * u / c)) / 2)
          (fun u _ => by rw [← hm2]; exact oblate_anti c (a * e) u hc hm)]
        have s1 : Real.sqrt (c ^ 2 + (a * e) ^ 2 * 1 ^ 2) = a := by
          rw [show c ^ 2 + (a * e) ^ 2 * 1 ^ 2 = a ^ 2 by linarith, Real.sqrt_sq ha.le]
        have s2 : Real.sqrt (c ^ 2 + (a * e) ^ 2 * (-1) ^ 2) = a := by
          rw [show c ^ 2 + (a * e) ^ 2 * (-1) ^ 2 = a ^ 2 by linarith, Real.sqrt_sq ha.le]
        have s3 : Real.arsinh (a * e * -1 / c) = -Real.arsinh (a * e * 1 / c) := by
          rw [← Real.arsinh_neg]; congr 1; ring
        have s4 : Real.arsinh (a * e * 1 / c) = Real.artanh e := by
          rw [Real.arsinh, Real.artanh]
          congr 1
          have e1 : Real.sqrt (1 + (a * e * 1 / c) ^ 2) = a / c := by
            rw [show 1 + (a * e * 1 / c) ^ 2 = (a / c) ^ 2 by rw [mul_one, div_pow, div_pow, hm2]; field_simp; ring, Real.sqrt_sq (by positivity)]
          have e2 : (1 + e) / (1 - e) = (a * (1 + e) / c) ^ 2 := by
            have : 0 < 1 - e := by linarith
            field_simp
            have : a ^ 2 * (1 - e ^ 2) = c ^ 2 := by linarith
            linear_combination (-(1 : ℝ)) * this
          rw [e1, e2, Real.sqrt_sq (by positivity)]
          field_simp
          ring
        rw [s1, s2, s3, s4]
        congr 1
        have h5 : a ^ 2 * (1 - e * e) = c ^ 2 := by linarith
        have : 2 * Real.pi * a * a * (1 + (1 - e * e) / e * Real.artanh e) = 2 * Real.pi * (a ^ 2 + a ^ 2 * (1 - e * e) / e * Real.artanh e) := by
          field_simp
        rw [this, h5]
        field_simp
        ring
      · have hac : a < c := lt_of_le_of_ne (not_lt.1 h) (fun h5 => by rw [h5, sub_self, abs_zero] at hge; linarith)
        rw [if_neg h, prolateArea, h1, Outcome.bind_ret]
        rw [max_eq_right hac.le, min_eq_left hac.le] at h4
        have he0 : 0 < e := by
          rcases h2.lt_or_eq with h5 | h5
          · exact h5
          · rw [← h5] at h4; nlinarith
        rw [fdiv_ret (by positivity), Outcome.bind_ret, asinU, if_neg (by push Not; exact ⟨by linarith, h3.le⟩), Outcome.bind_ret]
        have hm : 0 < c * e := by positivity
        have hm2 : (c * e) ^ 2 = c ^ 2 - a ^ 2 := by linarith
        rw [swept_spheroid a c ha (fun u => (u * Real.sqrt (c ^ 2 - (c * e) ^ 2 * u ^ 2) + c ^ 2 / (c * e) * Real.arcsin (c * e * u / c)) / 2)
          (fun u hu => by
            have := prolate_anti c (c * e) u hc hm (by nlinarith) hu.1 hu.2
            rw [show c ^ 2 + (a ^ 2 - c ^ 2) * u ^ 2 = c ^ 2 - (c * e) ^ 2 * u ^ 2 by rw [hm2]; ring]
            exact this)]
        have s1 : Real.sqrt (c ^ 2 - (c * e) ^ 2 * 1 ^ 2) = a := by
          rw [show c ^ 2 - (c * e) ^ 2 * 1 ^ 2 = a ^ 2 by linarith, Real.sqrt_sq ha.le]
        have s2 : Real.sqrt (c ^ 2 - (c * e) ^ 2 * (-1) ^ 2) = a := by
          rw [show c ^ 2 - (c * e) ^ 2 * (-1) ^ 2 = a ^ 2 by linarith, Real.sqrt_sq ha.le]
        have s3 : Real.arcsin (c * e * -1 / c) = -Real.arcsin e := by
          rw [← Real.arcsin_neg]; congr 1; field_simp
        have s4 : Real.arcsin (c * e * 1 / c) = Real.arcsin e := by congr 1; field_simp
        rw [s1, s2, s3, s4]
        congr 1
        field_simp
        ring

/-- A case of `spheroid_spec`: radii 5 and 3 have the eccentricity 4/5. -/
example : spheroidEcc 5 3 = .ret (4 / 5) := by
  rw [spheroidEcc, if_pos (by norm_num), eccOf, fdiv_ret (by norm_num), Outcome.bind_ret]
  exact sqrtU_ret (by norm_num) (by norm_num)

/-! ## Tetrahedron -/

/-- The sum of the terms differs from four times the squared determinant by a product that vanishes for equal edges. -/
theorem tetDet_eq (A B C D : V3 ℝ) :
    tetDet (eucl A B ^ 2) (eucl A C ^ 2) (eucl A D ^ 2) (eucl B C ^ 2) (eucl B D ^ 2) (eucl C D ^ 2) =
      4 * det6 A B C D ^ 2 + eucl A C ^ 2 * (eucl A D ^ 2 - eucl A B ^ 2) * (eucl C D ^ 2 - eucl B C ^ 2) := by
  have h : ∀ P Q : V3 ℝ, eucl P Q ^ 2 = (P.x - Q.x) ^ 2 + (P.y - Q.y) ^ 2 + (P.z - Q.z) ^ 2 := fun P Q => by rw [eucl, Real.sq_sqrt (by positivity)]
  rw [h, h, h, h, h, h, tetDet, det6]
  obtain ⟨a1, a2, a3⟩ := A
  obtain ⟨b1, b2, b3⟩ := B
  obtain ⟨c1, c2, c3⟩ := C
  obtain ⟨d1, d2, d3⟩ := D
  simp only
  obtain ⟨x1, rfl⟩ : ∃ x, b1 = a1 + x := ⟨b1 - a1, by ring⟩
  obtain ⟨x2, rfl⟩ : ∃ x, b2 = a2 + x := ⟨b2 - a2, by ring⟩
  obtain ⟨x3, rfl⟩ : ∃ x, b3 = a3 + x := ⟨b3 - a3, by ring⟩
  obtain ⟨y1, rfl⟩ : ∃ x, c1 = a1 + x := ⟨c1 - a1, by ring⟩
  obtain ⟨y2, rfl⟩ : ∃ x, c2 = a2 + x := ⟨c2 - a2, by ring⟩
  obtain ⟨y3, rfl⟩ : ∃ x, c3 = a3 + x := ⟨c3 - a3, by ring⟩
  obtain ⟨z1, rfl⟩ : ∃ x, d1 = a1 + x := ⟨d1 - a1, by ring⟩
  obtain ⟨z2, rfl⟩ : ∃ x, d2 = a2 + x := ⟨d2 - a2, by ring⟩
  obtain ⟨z3, rfl⟩ : ∃ x, d3 = a3 + x := ⟨d3 - a3, by ring⟩
  simp only [add_sub_cancel_left, sub_add_cancel_left, add_sub_add_left_eq_sub]
  ring

/-- **C125, partial.**  For all points with `|AB| = |AD|` or `|BC| = |CD|` (in particular the regular tetrahedra) `Volume` is the volume of the
tetrahedron.  Missing: the other tetrahedra, for which it is wrong (`tet_volume_wrong`) as soon as `A ≠ C`. -/
theorem tet_volume_partial (A B C D : V3 ℝ) (h : eucl A B = eucl A D ∨ eucl B C = eucl C D) : (edges A B C D).volume = |det6 A B C D| / 6 := by
  have := tetDet_eq A B C D
  have h0 : eucl A C ^ 2 * (eucl A D ^ 2 - eucl A B ^ 2) * (eucl C D ^ 2 - eucl B C ^ 2) = 0 := by
    rcases h with h | h <;> rw [h] <;> ring
  rw [h0, add_zero] at this
  rw [Tet.volume, edges]
  simp only [← sq]
  rw [this, abs_of_nonneg (by positivity), show 4 * det6 A B C D ^ 2 = (2 * det6 A B C D) ^ 2 by ring, Real.sqrt_sq_eq_abs, abs_mul, abs_two]
  ring

/-- A case of `tet_volume_partial`: the corner of a cube. -/
example : (edges ⟨0, 0, 0⟩ ⟨1, 0, 0⟩ ⟨0, 1, 0⟩ ⟨0, 0, 1⟩).volume = 1 / 6 := by
  rw [tet_volume_partial _ _ _ _ (Or.inl (by simp [eucl]))]
  norm_num [det6]

/-- **C125, a disagreement.**  The tetrahedron with the corners `(0,0,0)`, `(1,0,0)`, `(0,1,0)` and `(0,0,2)` has the volume 1/3, and `Volume` returns
another number. -/
theorem tet_volume_wrong : ∃ A B C D : V3 ℝ, |det6 A B C D| / 6 = 1 / 3 ∧ (edges A B C D).volume = Real.sqrt 25 / 12 ∧
    (edges A B C D).volume ≠ |det6 A B C D| / 6 := by
  have e : (edges ⟨0, 0, 0⟩ ⟨1, 0, 0⟩ ⟨0, 1, 0⟩ ⟨0, 0, 2⟩).volume = Real.sqrt 25 / 12 := by
    have := tetDet_eq ⟨0, 0, 0⟩ ⟨1, 0, 0⟩ ⟨0, 1, 0⟩ ⟨0, 0, 2⟩
    rw [Tet.volume, edges]
    simp only [← sq]
    rw [this]
    congr 2
    simp only [eucl]
    rw [Real.sq_sqrt (by positivity), Real.sq_sqrt (by positivity), Real.sq_sqrt (by positivity), Real.sq_sqrt (by positivity), Real.sq_sqrt (by positivity)]
    norm_num [det6]
  refine ⟨⟨0, 0, 0⟩, ⟨1, 0, 0⟩, ⟨0, 1, 0⟩, ⟨0, 0, 2⟩, by norm_num [det6], e, ?_⟩
  rw [e, show (25 : ℝ) = 5 ^ 2 by norm_num, Real.sqrt_sq (by norm_num)]
  norm_num [det6]

theorem heron3 (A B C : V3 ℝ) : (⟨eucl A B, eucl A C, eucl B C⟩ : Tri).area = .ret (triArea A B C) := by
  have h : ∀ P Q : V3 ℝ, eucl P Q ^ 2 = (P.x - Q.x) ^ 2 + (P.y - Q.y) ^ 2 + (P.z - Q.z) ^ 2 := fun P Q => by rw [eucl, Real.sq_sqrt (by positivity)]
  refine sqrtU_ret (div_nonneg (Real.sqrt_nonneg _) (by norm_num)) ?_
  rw [triArea, div_pow, Real.sq_sqrt (by positivity)]
  simp only [Tri.semi]
  have key : ∀ a b c : ℝ, (a + b + c) / 2 * ((a + b + c) / 2 - a) * ((a + b + c) / 2 - b) * ((a + b + c) / 2 - c) =
      (2 * (a ^ 2 * b ^ 2 + b ^ 2 * c ^ 2 + c ^ 2 * a ^ 2) - ((a ^ 2) ^ 2 + (b ^ 2) ^ 2 + (c ^ 2) ^ 2)) / 16 := fun a b c => by ring
  rw [key, h, h, h]
  ring

/-- **C125.**  `SurfaceArea` of a tetrahedron is the sum of the areas of its faces, for every four points; `Inradius` times it is three times `Volume`;
`Circumradius` of a regular tetrahedron is the distance of its centre from each corner. -/
theorem tet_spec (A B C D : V3 ℝ) (eps : ℝ) :
    (edges A B C D).surface = .ret (triArea A B C + triArea A B D + triArea A C D + triArea B C D) ∧
    (∀ r, (edges A B C D).inradius = .ret r → r * (triArea A B C + triArea A B D + triArea A C D + triArea B C D) = 3 * (edges A B C D).volume) ∧
    ((edges A B C D).isRegular eps = true ↔ |eucl A B - eucl A C| < eps ∧ |eucl A B - eucl A D| < eps ∧ |eucl A B - eucl B C| < eps ∧
      |eucl A B - eucl B D| < eps ∧ |eucl A B - eucl C D| < eps) ∧
    ((edges A B C D).isRegular eps = false → (edges A B C D).circumradius eps = 0) ∧
    (0 < eps → ∀ s, edges A B C D = ⟨s, s, s, s, s, s⟩ → ∀ P ∈ [A, B, C, D],
      eucl ⟨(A.x + B.x + C.x + D.x) / 4, (A.y + B.y + C.y + D.y) / 4, (A.z + B.z + C.z + D.z) / 4⟩ P = (edges A B C D).circumradius eps) := by
  have hsurf : (edges A B C D).surface = .ret (triArea A B C + triArea A B D + triArea A C D + triArea B C D) := by
    rw [Tet.surface, edges, heron3, Outcome.bind_ret, heron3, Outcome.bind_ret, heron3, Outcome.bind_ret, heron3, Outcome.bind_ret]
  refine ⟨hsurf, fun r hr => ?_, ?_, fun hf => ?_, fun heps s hs P hP => ?_⟩
  · rw [Tet.inradius, hsurf, Outcome.bind_ret, Interp.fdiv] at hr
    split_ifs at hr with h0
    simp only [Outcome.ret.injEq] at hr
    rw [← hr, div_mul_cancel₀ _ h0]
  · simp [Tet.isRegular, near_iff, edges, and_assoc]
  · rw [Tet.circumradius, hf]; simp
  · have hreg : (edges A B C D).isRegular eps = true := by rw [hs]; simp [Tet.isRegular, near, heps]
    have hs0 : 0 ≤ s := by
      have : (edges A B C D).ab = s := by rw [hs]
      rw [← this]; exact Real.sqrt_nonneg _
    have h : ∀ P Q : V3 ℝ, eucl P Q ^ 2 = (P.x - Q.x) ^ 2 + (P.y - Q.y) ^ 2 + (P.z - Q.z) ^ 2 := fun P Q => by rw [eucl, Real.sq_sqrt (by positivity)]
    rw [Tet.circumradius, hreg, if_pos rfl]
    simp only [edges, Tet.mk.injEq] at hs
    obtain ⟨e1, e2, e3, e4, e5, e6⟩ := hs
    have h6 : Real.sqrt 6 ^ 2 = 6 := Real.sq_sqrt (by norm_num)
    have f1 := h A B; have f2 := h A C; have f3 := h A D; have f4 := h B C; have f5 := h B D; have f6 := h C D
    rw [e1] at f1; rw [e2] at f2; rw [e3] at f3; rw [e4] at f4; rw [e5] at f5; rw [e6] at f6
    simp only [edges]
    rw [e1, eucl, Real.sqrt_eq_iff_eq_sq (by positivity) (by positivity)]
    rw [show (s * Real.sqrt 6 / 4) ^ 2 = s ^ 2 * Real.sqrt 6 ^ 2 / 16 by ring, h6]
    simp only [List.mem_cons, List.not_mem_nil, or_false] at hP
    rcases hP with rfl | rfl | rfl | rfl
    · linear_combination (-3 / 16 : ℝ) * (f1 + f2 + f3) + (1 / 16 : ℝ) * (f4 + f5 + f6)
    · linear_combination (-3 / 16 : ℝ) * (f1 + f4 + f5) + (1 / 16 : ℝ) * (f2 + f3 + f6)
    · linear_combination (-3 / 16 : ℝ) * (f2 + f4 + f6) + (1 / 16 : ℝ) * (f1 + f3 + f5)
    · linear_combination (-3 / 16 : ℝ) * (f3 + f5 + f6) + (1 / 16 : ℝ) * (f1 + f2 + f4)

/-- A case of `tet_spec`: four corners of a cube are a regular tetrahedron. -/
example : edges ⟨0, 0, 0⟩ ⟨1, 1, 0⟩ ⟨1, 0, 1⟩ ⟨0, 1, 1⟩ = ⟨Real.sqrt 2, Real.sqrt 2, Real.sqrt 2, Real.sqrt 2, Real.sqrt 2, Real.sqrt 2⟩ := by
  norm_num [edges, eucl]

/-- A case of `volume_spec`: the cap of height 1 of the sphere with radius 2. -/
example : vol {p : V3 ℝ | eucl ⟨0, 0, 0⟩ p ≤ 2 ∧ 2 - 1 ≤ p.z} = ENNReal.ofReal (5 / 3 * Real.pi) := by
  have := (volume_spec 2 1 1 1 1 1 2 (by norm_num) (by norm_num) (by norm_num) (by norm_num) (by norm_num) (by norm_num) (by norm_num)).2.2.2.2.2.1 (by norm_num)
  rw [this, capVolume]; congr 1; ring

end Verif.Geom.Shp
