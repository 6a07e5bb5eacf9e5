import Mathlib.Tactic
import Mathlib.Analysis.SpecialFunctions.PolarCoord
import Mathlib.MeasureTheory.Measure.Lebesgue.EqHaar
import Mathlib.Analysis.SpecialFunctions.Integrals.Basic
import Verif.Geom.Shapes2D
import Verif.Geom.VolLemmas
import Verif.CompGeo.TriangleProps
import Verif.CompGeo.BoxProps
import Verif.CompGeo.PolygonProps

/-!
# Properties of the plane figures given by lengths and angles (C124)

The specification places the figure in the plane: points are pairs of coordinates, `CompGeo.euclid` is their distance, `CompGeo.area2` twice the signed
area of a triangle, `CompGeo.Tri.AtDistance x p q h` says that the line through `p` and `q` is at distance `h` from `x`, angles are Mathlib's angles of
three points, areas of round figures Mathlib's Lebesgue measure.
-/

set_option autoImplicit false

namespace Verif.Geom.Shp
open CompGeo CompGeo.Tri MeasureTheory

theorem sqrtU_ret {a b : ℝ} (hb : 0 ≤ b) (h : a = b ^ 2) : Quat.sqrtU a = .ret b := by
  rw [Quat.sqrtU, h, if_neg (not_lt.2 (sq_nonneg b)), Real.sqrt_sq hb]

theorem acosU_ret {x : ℝ} (h1 : -1 ≤ x) (h2 : x ≤ 1) : acosU x = .ret (Real.arccos x) := by
  rw [acosU, if_neg (by rintro (h | h) <;> linarith)]

theorem fdiv_ret {a b : ℝ} (h : b ≠ 0) : Interp.fdiv a b = .ret (a / b) := CompGeo.Poly.fdiv_of_ne h

theorem euclid_of {p q : Pt} {d : ℝ} (hd : 0 ≤ d) (h : (p.1 - q.1) ^ 2 + (p.2 - q.2) ^ 2 = d ^ 2) : euclid p q = d := by
  rw [euclid, h, Real.sqrt_sq hd]

/-! ## Triangles -/

/-- The triangle with the vertices `p`, `q`, `r` has the side lengths of `t`: `a` is opposite to `p`, `b` to `q` and `c` to `r`. -/
def Has (t : Tri) (p q r : Pt) : Prop := t.a = euclid q r ∧ t.b = euclid r p ∧ t.c = euclid p q

/-- **C124.**  `IsValid` says exactly that some triangle of the plane, not all on a line, has these side lengths. -/
theorem tri_valid (t : Tri) : t.isValid = true ↔ ∃ p q r : Pt, area2 p q r ≠ 0 ∧ Has t p q r := by
  simp only [Tri.isValid, Bool.and_eq_true, decide_eq_true_eq]
  constructor
  · rintro ⟨⟨⟨⟨⟨ha, hb⟩, hc⟩, h1⟩, h2⟩, h3⟩
    have hy : 0 < t.b ^ 2 - ((t.b ^ 2 + t.c ^ 2 - t.a ^ 2) / (2 * t.c)) ^ 2 := by
      have e : t.b ^ 2 - ((t.b ^ 2 + t.c ^ 2 - t.a ^ 2) / (2 * t.c)) ^ 2 =
          ((t.b + t.c + t.a) * (t.b + t.c - t.a) * ((t.a + t.b - t.c) * (t.a + t.c - t.b))) / (4 * t.c ^ 2) := by
        field_simp
        ring
      rw [e]
      have g1 : 0 < t.b + t.c - t.a := by linarith
      have g2 : 0 < t.a + t.b - t.c := by linarith
      have g3 : 0 < t.a + t.c - t.b := by linarith
      positivity
    refine ⟨(0, 0), (t.c, 0), ((t.b ^ 2 + t.c ^ 2 - t.a ^ 2) / (2 * t.c), Real.sqrt (t.b ^ 2 - ((t.b ^ 2 + t.c ^ 2 - t.a ^ 2) / (2 * t.c)) ^ 2)), ?_, ?_, ?_, ?_⟩
    · have := Real.sqrt_pos.2 hy
      simp only [area2]
      simp
      exact ⟨hc.ne', this.ne'⟩
    · refine (euclid_of ha.le ?_).symm
      simp only [zero_sub, neg_sq, Real.sq_sqrt hy.le]
      field_simp
      ring
    · refine (euclid_of hb.le ?_).symm
      simp only [sub_zero, Real.sq_sqrt hy.le]
      ring
    · refine (euclid_of hc.le ?_).symm
      simp
  · rintro ⟨p, q, r, hne, h1, h2, h3⟩
    have hpq : p ≠ q := by rintro rfl; apply hne; simp only [area2]; ring
    have hqr : q ≠ r := by rintro rfl; apply hne; simp only [area2]; ring
    have hrp : r ≠ p := by rintro rfl; apply hne; simp only [area2]; ring
    have ha : 0 < t.a := h1 ▸ euclid_pos hqr
    have hb : 0 < t.b := h2 ▸ euclid_pos hrp
    have hc : 0 < t.c := h3 ▸ euclid_pos hpq
    have e1 := euclid_sq q r
    have e2 := euclid_sq r p
    have e3 := euclid_sq p q
    rw [← h1] at e1
    rw [← h2] at e2
    rw [← h3] at e3
    have key : (t.a + t.b + t.c) * (t.a + t.b - t.c) * (t.a + t.c - t.b) * (t.b + t.c - t.a) = 4 * area2 p q r ^ 2 := by
      have : (t.a + t.b + t.c) * (t.a + t.b - t.c) * (t.a + t.c - t.b) * (t.b + t.c - t.a) =
          2 * (t.a ^ 2 * t.b ^ 2 + t.b ^ 2 * t.c ^ 2 + t.c ^ 2 * t.a ^ 2) - ((t.a ^ 2) ^ 2 + (t.b ^ 2) ^ 2 + (t.c ^ 2) ^ 2) := by ring
      rw [this, e1, e2, e3, area2]
      ring
    have hpos : 0 < (t.a + t.b - t.c) * (t.a + t.c - t.b) * (t.b + t.c - t.a) := by
      have h4 : 0 < 4 * area2 p q r ^ 2 := by positivity
      rw [← key, mul_assoc, mul_assoc, ← mul_assoc (t.a + t.b - t.c)] at h4
      exact (mul_pos_iff_of_pos_left (by positivity)).1 h4
    by_contra hc'
    simp only [ha, hb, hc, true_and, not_and_or, not_lt] at hc'
    rcases hc' with (h | h) | h
    · have : 0 ≤ (t.a + t.c - t.b) * (t.b + t.c - t.a) := mul_nonneg (by linarith) (by linarith)
      nlinarith [mul_nonneg (by linarith : 0 ≤ t.c - (t.a + t.b)) this]
    · have : 0 ≤ (t.a + t.b - t.c) * (t.b + t.c - t.a) := mul_nonneg (by linarith) (by linarith)
      nlinarith [mul_nonneg (by linarith : 0 ≤ t.b - (t.a + t.c)) this]
    · have : 0 ≤ (t.a + t.b - t.c) * (t.a + t.c - t.b) := mul_nonneg (by linarith) (by linarith)
      nlinarith [mul_nonneg (by linarith : 0 ≤ t.a - (t.b + t.c)) this]

theorem Has.rot {t : Tri} {p q r : Pt} (h : Has t p q r) : Has ⟨t.b, t.c, t.a⟩ q r p := ⟨h.2.1, h.2.2, h.1⟩

theorem tri_area {t : Tri} {p q r : Pt} (h : Has t p q r) : t.area = .ret (|area2 p q r| / 2) := by
  obtain ⟨h1, h2, h3⟩ := h
  refine sqrtU_ret (by positivity) ?_
  have e1 := euclid_sq q r
  have e2 := euclid_sq r p
  have e3 := euclid_sq p q
  rw [← h1] at e1
  rw [← h2] at e2
  rw [← h3] at e3
  have : t.semi * (t.semi - t.a) * (t.semi - t.b) * (t.semi - t.c) =
      (2 * (t.a ^ 2 * t.b ^ 2 + t.b ^ 2 * t.c ^ 2 + t.c ^ 2 * t.a ^ 2) - ((t.a ^ 2) ^ 2 + (t.b ^ 2) ^ 2 + (t.c ^ 2) ^ 2)) / 16 := by
    rw [Tri.semi]; ring
  rw [this, e1, e2, e3, div_pow, sq_abs, area2]
  ring

theorem clamp_id {x : ℝ} (h1 : -1 ≤ x) (h2 : x ≤ 1) : CB.clamp x (-1) 1 = .ret x := by
  rw [CB.clamp, if_neg (by norm_num), if_neg (not_lt.2 h1), if_neg (not_lt.2 h2)]

theorem angle_ret (p q r : Pt) (hq : p ≠ q) (hr : p ≠ r) :
    Tri.angle (euclid q r) (euclid p q) (euclid p r) = .ret (EuclideanGeometry.angle (toE q) (toE p) (toE r)) := by
  have h1 := euclid_pos hq
  have h2 := euclid_pos hr
  have hne : 2 * euclid p q * euclid p r ≠ 0 := by positivity
  have hinner : inner ℝ (toE q - toE p) (toE r - toE p) = (q.1 - p.1) * (r.1 - p.1) + (q.2 - p.2) * (r.2 - p.2) := by
    simp [toE, PiLp.inner_apply, Fin.sum_univ_two]; ring
  have hx : (euclid p q * euclid p q + euclid p r * euclid p r - euclid q r * euclid q r) / (2 * euclid p q * euclid p r) =
      inner ℝ (toE q - toE p) (toE r - toE p) / (‖toE q - toE p‖ * ‖toE r - toE p‖) := by
    rw [toE_norm, toE_norm, Lines.euclid_comm q p, Lines.euclid_comm r p, hinner, ← pow_two, ← pow_two, ← pow_two, euclid_sq, euclid_sq, euclid_sq]
    field_simp
    ring
  have := abs_le.1 (abs_real_inner_div_norm_mul_norm_le_one (toE q - toE p) (toE r - toE p))
  rw [Tri.angle, fdiv_ret hne, Outcome.bind_ret, hx, clamp_id this.1 this.2, Outcome.bind_ret, acosU_ret this.1 this.2]
  rfl

theorem angle_swap (x y z : ℝ) : Tri.angle x y z = Tri.angle x z y := by
  rw [Tri.angle, Tri.angle, show y * y + z * z - x * x = z * z + y * y - x * x by ring, show 2 * y * z = 2 * z * y by ring]

theorem vertices_ne {p q r : Pt} (hne : area2 p q r ≠ 0) : p ≠ q ∧ q ≠ r ∧ r ≠ p := by
  refine ⟨?_, ?_, ?_⟩ <;> rintro rfl <;> apply hne <;> simp only [area2] <;> ring

/-- **C124.**  For every placement of the triangle, degenerate or not, `Area` by Heron's formula is its area and the root is never that of a negative
number; the medians are the distances of the vertices from the midpoints of the sides. -/
theorem tri_area_median {t : Tri} {p q r : Pt} (h : Has t p q r) :
    t.area = .ret (|area2 p q r| / 2) ∧ t.perimeter = euclid q r + euclid r p + euclid p q ∧
    t.medianA = .ret (euclid p ((q.1 + r.1) / 2, (q.2 + r.2) / 2)) ∧ t.medianB = .ret (euclid q ((r.1 + p.1) / 2, (r.2 + p.2) / 2)) ∧
    t.medianC = .ret (euclid r ((p.1 + q.1) / 2, (p.2 + q.2) / 2)) := by
  have med : ∀ p q r : Pt, Tri.median (euclid q r) (euclid r p) (euclid p q) = .ret (euclid p ((q.1 + r.1) / 2, (q.2 + r.2) / 2)) := by
    intro p q r
    rw [Tri.median, sqrtU_ret (b := 2 * euclid p ((q.1 + r.1) / 2, (q.2 + r.2) / 2)) (mul_nonneg (by norm_num) (euclid_nonneg _ _)) ?_, Outcome.bind_ret]
    · congr 1; ring
    · rw [mul_pow, euclid_sq, show 2 * euclid r p * euclid r p + 2 * euclid p q * euclid p q - euclid q r * euclid q r =
        2 * euclid r p ^ 2 + 2 * euclid p q ^ 2 - euclid q r ^ 2 by ring, euclid_sq, euclid_sq, euclid_sq]
      ring
  have swap : ∀ x y z : ℝ, Tri.median x y z = Tri.median x z y := fun x y z => by
    rw [Tri.median, Tri.median, show 2 * y * y + 2 * z * z - x * x = 2 * z * z + 2 * y * y - x * x by ring]
  refine ⟨tri_area h, by rw [Tri.perimeter, h.1, h.2.1, h.2.2], ?_, ?_, ?_⟩
  · rw [Tri.medianA, h.1, h.2.1, h.2.2, med]
  · rw [Tri.medianB, h.1, h.2.1, h.2.2, swap, med]
  · rw [Tri.medianC, h.1, h.2.1, h.2.2, med]

/-- **C124.**  For every triangle that is not degenerate, the angles are those at the vertices, with sum `π`, and `IsAcute` and `IsObtuse` compare them
with the right angle; each altitude is the distance of a vertex from the line through the other two; some point inside has distance `Inradius` from the
lines through the sides, and some point has distance `Circumradius` from the vertices. -/
theorem tri_spec {t : Tri} {p q r : Pt} (h : Has t p q r) (hne : area2 p q r ≠ 0) :
    (∃ x y z, t.angleA = .ret x ∧ t.angleB = .ret y ∧ t.angleC = .ret z ∧ x = EuclideanGeometry.angle (toE q) (toE p) (toE r) ∧
      y = EuclideanGeometry.angle (toE r) (toE q) (toE p) ∧ z = EuclideanGeometry.angle (toE p) (toE r) (toE q) ∧ x + y + z = Real.pi ∧
      (t.isAcute = true ↔ x < Real.pi / 2 ∧ y < Real.pi / 2 ∧ z < Real.pi / 2) ∧
      (t.isObtuse = true ↔ Real.pi / 2 < x ∨ Real.pi / 2 < y ∨ Real.pi / 2 < z)) ∧
    (∃ x y z, t.altitudeA = .ret x ∧ t.altitudeB = .ret y ∧ t.altitudeC = .ret z ∧ AtDistance p q r x ∧ AtDistance q r p y ∧ AtDistance r p q z) ∧
    (∃ m x, t.inradius = .ret x ∧ m ∈ convexHull ℝ {p, q, r} ∧ AtDistance m p q x ∧ AtDistance m q r x ∧ AtDistance m r p x) ∧
    (∃ m x, t.circumradius = .ret x ∧ euclid m p = x ∧ euclid m q = x ∧ euclid m r = x) := by
  obtain ⟨hpq, hqr, hrp⟩ := vertices_ne hne
  have harea := tri_area h
  obtain ⟨h1, h2, h3⟩ := h
  have ha := euclid_pos hqr
  have hb := euclid_pos hrp
  have hc := euclid_pos hpq
  have hS : 0 < |area2 p q r| := abs_pos.2 hne
  have e1 := euclid_sq q r
  have e2 := euclid_sq r p
  have e3 := euclid_sq p q
  refine ⟨?_, ?_, ?_, ?_⟩
  · have cosang : ∀ p q r : Pt, p ≠ q → p ≠ r → EuclideanGeometry.angle (toE q) (toE p) (toE r) =
        Real.arccos ((euclid p q ^ 2 + euclid p r ^ 2 - euclid q r ^ 2) / (2 * euclid p q * euclid p r)) := by
      intro p q r hq hr
      have := angle_ret p q r hq hr
      have p1 := euclid_pos hq
      have p2 := euclid_pos hr
      have hx : (euclid p q * euclid p q + euclid p r * euclid p r - euclid q r * euclid q r) / (2 * euclid p q * euclid p r) =
          inner ℝ (toE q - toE p) (toE r - toE p) / (‖toE q - toE p‖ * ‖toE r - toE p‖) := by
        have hinner : inner ℝ (toE q - toE p) (toE r - toE p) = (q.1 - p.1) * (r.1 - p.1) + (q.2 - p.2) * (r.2 - p.2) := by
          simp [toE, PiLp.inner_apply, Fin.sum_univ_two]; ring
        rw [toE_norm, toE_norm, Lines.euclid_comm q p, Lines.euclid_comm r p, hinner, ← pow_two, ← pow_two, ← pow_two, euclid_sq, euclid_sq, euclid_sq]
        field_simp
        ring
      rw [show euclid p q ^ 2 + euclid p r ^ 2 - euclid q r ^ 2 = euclid p q * euclid p q + euclid p r * euclid p r - euclid q r * euclid q r by ring, hx]
      rfl
    have lt_iff : ∀ p q r : Pt, p ≠ q → p ≠ r → (EuclideanGeometry.angle (toE q) (toE p) (toE r) < Real.pi / 2 ↔
        euclid q r * euclid q r < euclid p q * euclid p q + euclid p r * euclid p r) := by
      intro p q r hq hr
      have p1 := euclid_pos hq
      have p2 := euclid_pos hr
      rw [cosang p q r hq hr, Real.arccos_lt_pi_div_two, lt_div_iff₀ (by positivity)]
      constructor <;> intro h <;> nlinarith
    have gt_iff : ∀ p q r : Pt, p ≠ q → p ≠ r → (Real.pi / 2 < EuclideanGeometry.angle (toE q) (toE p) (toE r) ↔
        euclid p q * euclid p q + euclid p r * euclid p r < euclid q r * euclid q r) := by
      intro p q r hq hr
      have p1 := euclid_pos hq
      have p2 := euclid_pos hr
      rw [cosang p q r hq hr, ← not_le, Real.arccos_le_pi_div_two, not_le, div_lt_iff₀ (by positivity)]
      constructor <;> intro h <;> nlinarith
    refine ⟨_, _, _, ?_, ?_, ?_, rfl, rfl, rfl, ?_, ?_, ?_⟩
    · rw [Tri.angleA, h1, h2, h3, angle_swap, Lines.euclid_comm r p]
      exact angle_ret p q r hpq hrp.symm
    · rw [Tri.angleB, h1, h2, h3, Lines.euclid_comm p q]
      exact angle_ret q r p hqr hpq.symm
    · rw [Tri.angleC, h1, h2, h3, angle_swap, Lines.euclid_comm q r]
      exact angle_ret r p q hrp hqr.symm
    · have inj : ∀ p q : Pt, p ≠ q → toE p ≠ toE q := by
        intro p q hpq he
        have := toE_norm p q
        rw [he, sub_self, norm_zero] at this
        exact (euclid_pos hpq).ne this
      have := EuclideanGeometry.angle_add_angle_add_angle_eq_pi (p₁ := toE q) (p₂ := toE p) (toE r) (inj _ _ hpq)
      linarith
    · rw [lt_iff p q r hpq hrp.symm, lt_iff q r p hqr hpq.symm, lt_iff r p q hrp hqr.symm, Tri.isAcute, h1, h2, h3, Lines.euclid_comm p r, Lines.euclid_comm q p,
        Lines.euclid_comm r q]
      simp only [Bool.and_eq_true, decide_eq_true_eq]
      constructor
      · rintro ⟨⟨g1, g2⟩, g3⟩; exact ⟨by linarith, by linarith, by linarith⟩
      · rintro ⟨g1, g2, g3⟩; exact ⟨⟨by linarith, by linarith⟩, by linarith⟩
    · rw [gt_iff p q r hpq hrp.symm, gt_iff q r p hqr hpq.symm, gt_iff r p q hrp hqr.symm, Tri.isObtuse, h1, h2, h3, Lines.euclid_comm p r, Lines.euclid_comm q p,
        Lines.euclid_comm r q]
      simp only [Bool.or_eq_true, decide_eq_true_eq]
      constructor
      · rintro ((g | g) | g)
        · exact Or.inr (Or.inr (by linarith))
        · exact Or.inr (Or.inl (by linarith))
        · exact Or.inl (by linarith)
      · rintro (g | g | g)
        · exact Or.inr (by linarith)
        · exact Or.inl (Or.inr (by linarith))
        · exact Or.inl (Or.inl (by linarith))
  · refine ⟨2 * (|area2 p q r| / 2) / t.a, 2 * (|area2 p q r| / 2) / t.b, 2 * (|area2 p q r| / 2) / t.c, ?_, ?_, ?_, ?_, ?_, ?_⟩
    · rw [Tri.altitudeA, Tri.altitude, harea, Outcome.bind_ret, fdiv_ret (h1 ▸ ha.ne')]
    · rw [Tri.altitudeB, Tri.altitude, harea, Outcome.bind_ret, fdiv_ret (h2 ▸ hb.ne')]
    · rw [Tri.altitudeC, Tri.altitude, harea, Outcome.bind_ret, fdiv_ret (h3 ▸ hc.ne')]
    · refine dist_line _ _ _ _ hqr ?_
      rw [h1, div_mul_cancel₀ _ ha.ne', show area2 q r p = area2 p q r by rw [area2, area2]; ring]; ring
    · refine dist_line _ _ _ _ hrp ?_
      rw [h2, div_mul_cancel₀ _ hb.ne', show area2 r p q = area2 p q r by rw [area2, area2]; ring]; ring
    · refine dist_line _ _ _ _ hpq ?_
      rw [h3, div_mul_cancel₀ _ hc.ne']; ring
  · set a := euclid q r with ha'
    set b := euclid r p with hb'
    set c := euclid p q with hc'
    have hP : 0 < a + b + c := by positivity
    have hsemi : t.semi = (a + b + c) / 2 := by rw [Tri.semi, h1, h2, h3]
    refine ⟨((a * p.1 + b * q.1 + c * r.1) / (a + b + c), (a * p.2 + b * q.2 + c * r.2) / (a + b + c)), |area2 p q r| / 2 / ((a + b + c) / 2), ?_, ?_, ?_, ?_, ?_⟩
    · rw [Tri.inradius, harea, Outcome.bind_ret, hsemi, fdiv_ret (by positivity)]
    · have : ((a * p.1 + b * q.1 + c * r.1) / (a + b + c), (a * p.2 + b * q.2 + c * r.2) / (a + b + c)) =
          (a / (a + b + c)) • p + (b / (a + b + c)) • q + (c / (a + b + c)) • r := by
        ext
        · simp; field_simp
        · simp; field_simp
      rw [this]
      have hconv := convex_convexHull ℝ ({p, q, r} : Set Pt)
      have m1 : p ∈ convexHull ℝ ({p, q, r} : Set Pt) := subset_convexHull ℝ _ (by simp)
      have m2 : q ∈ convexHull ℝ ({p, q, r} : Set Pt) := subset_convexHull ℝ _ (by simp)
      have m3 : r ∈ convexHull ℝ ({p, q, r} : Set Pt) := subset_convexHull ℝ _ (by simp)
      have := hconv.sum_mem (t := Finset.univ) (w := ![a / (a + b + c), b / (a + b + c), c / (a + b + c)]) (z := ![p, q, r])
        (by intro i _; fin_cases i <;> simp <;> positivity) (by simp [Fin.sum_univ_three]; field_simp) (by intro i _; fin_cases i <;> simp [m1, m2, m3])
      simpa [Fin.sum_univ_three] using this
    · refine dist_line _ _ _ _ hpq ?_
      have : area2 p q ((a * p.1 + b * q.1 + c * r.1) / (a + b + c), (a * p.2 + b * q.2 + c * r.2) / (a + b + c)) = area2 p q r / (a + b + c) * c := by
        simp only [area2]; field_simp; ring
      rw [this, abs_mul, abs_div, abs_of_pos hP, abs_of_pos hc, ← hc']
      field_simp
    · refine dist_line _ _ _ _ hqr ?_
      have : area2 q r ((a * p.1 + b * q.1 + c * r.1) / (a + b + c), (a * p.2 + b * q.2 + c * r.2) / (a + b + c)) = area2 p q r / (a + b + c) * a := by
        simp only [area2]; field_simp; ring
      rw [this, abs_mul, abs_div, abs_of_pos hP, abs_of_pos ha, ← ha']
      field_simp
    · refine dist_line _ _ _ _ hrp ?_
      have : area2 r p ((a * p.1 + b * q.1 + c * r.1) / (a + b + c), (a * p.2 + b * q.2 + c * r.2) / (a + b + c)) = area2 p q r / (a + b + c) * b := by
        simp only [area2]; field_simp; ring
      rw [this, abs_mul, abs_div, abs_of_pos hP, abs_of_pos hb, ← hb']
      field_simp
  · obtain ⟨m, hm⟩ : ∃ m : Pt, m = (p.1 + ((r.2 - p.2) * euclid p q ^ 2 - (q.2 - p.2) * euclid r p ^ 2) / (2 * area2 p q r),
        p.2 + ((q.1 - p.1) * euclid r p ^ 2 - (r.1 - p.1) * euclid p q ^ 2) / (2 * area2 p q r)) := ⟨_, rfl⟩
    have hR0 : 0 ≤ euclid q r * euclid r p * euclid p q / (4 * (|area2 p q r| / 2)) := by positivity
    have hR : (euclid q r * euclid r p * euclid p q / (4 * (|area2 p q r| / 2))) ^ 2 = euclid q r ^ 2 * euclid r p ^ 2 * euclid p q ^ 2 / (4 * area2 p q r ^ 2) := by
      rw [div_pow, mul_pow, mul_pow, mul_pow, div_pow, sq_abs]
      ring
    refine ⟨m, euclid q r * euclid r p * euclid p q / (4 * (|area2 p q r| / 2)), ?_, ?_, ?_, ?_⟩
    · rw [Tri.circumradius, harea, Outcome.bind_ret, h1, h2, h3, fdiv_ret (by positivity)]
    · refine euclid_of hR0 ?_
      rw [hR, hm]
      field_simp
      rw [e1, e2, e3, area2]
      ring
    · refine euclid_of hR0 ?_
      rw [hR, hm]
      field_simp
      rw [e1, e2, e3, area2]
      ring
    · refine euclid_of hR0 ?_
      rw [hR, hm]
      field_simp
      rw [e1, e2, e3, area2]
      ring

/-- A case of the theorems about triangles: the triangle with the sides 3, 4 and 5. -/
example : Has ⟨3, 4, 5⟩ (4, 0) (0, 3) (0, 0) ∧ area2 (4, 0) (0, 3) (0, 0) ≠ 0 :=
  ⟨⟨(euclid_of (by norm_num) (by norm_num)).symm, (euclid_of (by norm_num) (by norm_num)).symm, (euclid_of (by norm_num) (by norm_num)).symm⟩, by norm_num [area2]⟩

/-- **C124.**  The other classifications, for the sides alone. -/
theorem tri_class (t : Tri) (eps : ℝ) :
    (t.isIsosceles eps = true ↔ |t.a - t.b| < eps ∨ |t.a - t.c| < eps ∨ |t.b - t.c| < eps) ∧
    (t.isEquilateral eps = true ↔ |t.a - t.b| < eps ∧ |t.a - t.c| < eps) ∧
    (t.isScalene eps = true ↔ eps < |t.a - t.b| ∧ eps < |t.a - t.c| ∧ eps < |t.b - t.c|) ∧
    (t.isRight eps = true ↔ |t.a ^ 2 + t.b ^ 2 - t.c ^ 2| < eps ∨ |t.a ^ 2 + t.c ^ 2 - t.b ^ 2| < eps ∨ |t.b ^ 2 + t.c ^ 2 - t.a ^ 2| < eps) := by
  simp [Tri.isIsosceles, Tri.isEquilateral, Tri.isScalene, Tri.isRight, near, pow_two, or_assoc, and_assoc]

end Verif.Geom.Shp
