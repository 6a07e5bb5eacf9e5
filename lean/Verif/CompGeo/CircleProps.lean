import Verif.CompGeo.CircleBox
import Verif.CompGeo.TriangleProps
import Mathlib.MeasureTheory.Measure.Lebesgue.VolumeOfBalls

/-!
# C115: circles in the plane
-/

set_option autoImplicit false

namespace Verif.CompGeo.CB

open Verif.CompGeo.Tri (euclid_nonneg euclid_sq euclid_pos)
open Verif.CompGeo.Lines (euclid_comm euclid_triangle)

/-- The points of the circle line. -/
def Circle.curve (c : Circle) : Set Pt := {x | euclid c.center x = c.radius}

/-- The points of the disc. -/
def Circle.disc (c : Circle) : Set Pt := {x | euclid c.center x ≤ c.radius}

/-- **C115.**  A negative radius is refused. -/
theorem circle_new (c : Pt) (r : ℝ) : (r < 0 → Circle.new c r = .exn (.mml "GeometryError")) ∧ (0 ≤ r → Circle.new c r = .ret ⟨c, r⟩) :=
  ⟨fun h => by rw [Circle.new, if_pos h], fun h => by rw [Circle.new, if_neg (not_lt.2 h)]⟩

/-- **C115.**  `FromDiameter`: the points of the circle are those from which the diameter is seen under a right angle. -/
theorem fromDiameter_spec (p q : Pt) : ∃ c, Circle.fromDiameter p q = .ret c ∧ 0 ≤ c.radius ∧ p ∈ c.curve ∧ q ∈ c.curve ∧
    ∀ x, x ∈ c.curve ↔ (x.1 - p.1) * (x.1 - q.1) + (x.2 - p.2) * (x.2 - q.2) = 0 := by
  have h0 : 0 ≤ dist2 p q / 2 := div_nonneg (Real.sqrt_nonneg _) (by norm_num)
  have key : ∀ x : Pt, x ∈ (⟨((p.1 + q.1) / 2, (p.2 + q.2) / 2), dist2 p q / 2⟩ : Circle).curve ↔
      (x.1 - p.1) * (x.1 - q.1) + (x.2 - p.2) * (x.2 - q.2) = 0 := by
    intro x
    show euclid ((p.1 + q.1) / 2, (p.2 + q.2) / 2) x = dist2 p q / 2 ↔ _
    rw [← pow_left_inj₀ (euclid_nonneg _ _) h0 (by norm_num : (2 : ℕ) ≠ 0), euclid_sq, div_pow, dist2_eq, euclid_sq]
    constructor
    · intro h
      simp only at h
      linarith
    · intro h
      simp only
      linarith
  refine ⟨_, (circle_new _ _).2 h0, h0, ?_, ?_, key⟩
  · rw [key]; ring
  · rw [key]; ring

/-- **C115.**  `FromThreePoints` throws exactly if the area of the triangle is below the tolerance; otherwise the circle goes through the three points. -/
theorem fromThreePoints_spec (p q r : Pt) :
    (|area2 p q r / 2| < 1 / 10 ^ 10 → Circle.fromThreePoints p q r = .exn (.mml "GeometryError")) ∧
    (1 / 10 ^ 10 ≤ |area2 p q r / 2| → ∃ c, Circle.fromThreePoints p q r = .ret c ∧ 0 ≤ c.radius ∧ p ∈ c.curve ∧ q ∈ c.curve ∧ r ∈ c.curve) := by
  have hF := Tri.new_fresh p q r
  have hA : area2 p q r / 2 = Tri.signedArea (Tri.new p q r) := (Tri.area_spec _ hF).1.symm
  rw [hA]
  obtain ⟨h1, h2⟩ := Tri.circumRadius_spec _ hF
  obtain ⟨h3, h4⟩ := Tri.circumcenter_spec (Tri.new p q r)
  constructor
  · intro h
    rcases lt_or_ge |Tri.signedArea (Tri.new p q r)| (1 / 10 ^ 10 / 4) with h' | h'
    · rw [Circle.fromThreePoints, h3 h']; rfl
    · obtain ⟨m, hm, -⟩ := h4 h'
      rw [Circle.fromThreePoints, hm, Outcome.bind_ret, h1 h]; rfl
  · intro h
    obtain ⟨m, s, hm, hs, e1, e2, e3⟩ := h2 h
    have h0 : 0 ≤ s := e1 ▸ euclid_nonneg _ _
    refine ⟨⟨m, s⟩, ?_, h0, e1.symm, e2.symm, e3.symm⟩
    rw [Circle.fromThreePoints, hm, Outcome.bind_ret, hs, Outcome.bind_ret, (circle_new _ _).2 h0]

/-- **C115.**  `PointAt` runs through the points of the circle. -/
theorem pointAt_spec (c : Circle) (hr : 0 ≤ c.radius) (x : Pt) : x ∈ c.curve ↔ ∃ θ, x = c.pointAt θ := by
  show euclid c.center x = c.radius ↔ _
  constructor
  · intro h
    have h2 := euclid_sq c.center x
    rw [h] at h2
    rcases eq_or_lt_of_le hr with h0 | h0
    · refine ⟨0, ?_⟩
      rw [← h0] at h2
      have h2' : (c.center.1 - x.1) ^ 2 + (c.center.2 - x.2) ^ 2 = 0 := by linarith
      ext
      · simp only [Circle.pointAt, ← h0]
        nlinarith [sq_nonneg (c.center.1 - x.1), sq_nonneg (c.center.2 - x.2)]
      · simp only [Circle.pointAt, ← h0]
        nlinarith [sq_nonneg (c.center.1 - x.1), sq_nonneg (c.center.2 - x.2)]
    · refine ⟨Complex.arg ⟨(x.1 - c.center.1) / c.radius, (x.2 - c.center.2) / c.radius⟩, ?_⟩
      set z : ℂ := ⟨(x.1 - c.center.1) / c.radius, (x.2 - c.center.2) / c.radius⟩ with hz
      have hn : ‖z‖ = 1 := by
        rw [← pow_left_inj₀ (norm_nonneg _) (by norm_num) (by norm_num : (2 : ℕ) ≠ 0), Complex.sq_norm, Complex.normSq_apply]
        simp only [hz]
        field_simp
        linarith
      have hzne : z ≠ 0 := by rintro h0; rw [h0, norm_zero] at hn; norm_num at hn
      ext
      · simp only [Circle.pointAt]
        rw [Complex.cos_arg hzne, hn, div_one]
        simp only [hz]; field_simp; ring
      · simp only [Circle.pointAt]
        rw [Complex.sin_arg, hn, div_one]
        simp only [hz]; field_simp; ring
  · rintro ⟨θ, rfl⟩
    rw [← pow_left_inj₀ (euclid_nonneg _ _) hr (by norm_num : (2 : ℕ) ≠ 0), euclid_sq]
    simp only [Circle.pointAt]
    have := Real.sin_sq_add_cos_sq θ
    linear_combination c.radius ^ 2 * this

/-- **C115.**  The tangent at a point has length one and is orthogonal to the radius. -/
theorem tangentAt_spec (c : Circle) (θ : ℝ) : (c.tangentAt θ).1 ^ 2 + (c.tangentAt θ).2 ^ 2 = 1 ∧
    (c.tangentAt θ).1 * ((c.pointAt θ).1 - c.center.1) + (c.tangentAt θ).2 * ((c.pointAt θ).2 - c.center.2) = 0 := by
  refine ⟨?_, ?_⟩
  · simp only [Circle.tangentAt]
    have := Real.sin_sq_add_cos_sq θ
    linarith
  · simp only [Circle.tangentAt, Circle.pointAt]; ring

/-- **C115.**  `Contains` and `IsOnBoundary` compare the distance from the centre with the radius; `SignedDistance` is negative exactly inside. -/
theorem circle_contains (c : Circle) (p : Pt) (eps : ℝ) : (c.contains p eps = true ↔ euclid c.center p ≤ c.radius + eps) ∧
    (c.contains p 0 = true ↔ p ∈ c.disc) ∧ (c.isOnBoundary p eps = true ↔ |euclid c.center p - c.radius| < eps) ∧
    c.signedDist p = euclid c.center p - c.radius ∧ (c.signedDist p ≤ 0 ↔ p ∈ c.disc) := by
  have e : c.distFromCenter p = euclid c.center p := dist2_eq _ _
  refine ⟨by rw [Circle.contains, e]; simp, by rw [Circle.contains, e]; simp [Circle.disc], by rw [Circle.isOnBoundary, e]; simp, by rw [Circle.signedDist, e], ?_⟩
  rw [Circle.signedDist, e, sub_nonpos]; rfl

/-- No point of the circle is closer than the difference of the distance from the centre and the radius. -/
theorem dist_le (c : Circle) (p x : Pt) (hx : x ∈ c.curve) : c.dist p ≤ euclid p x := by
  have hx : euclid c.center x = c.radius := hx
  have h1 := euclid_triangle c.center x p
  have h2 := euclid_triangle c.center p x
  rw [Circle.dist, Circle.signedDist, show c.distFromCenter p = euclid c.center p from dist2_eq _ _, abs_le]
  rw [euclid_comm x p] at h1
  constructor <;> linarith

/-- **C115.**  `ClosestPoint` of a point whose distance from the centre is not below the tolerance is the nearest point of the circle, at distance
`DistanceToPoint`. -/
theorem circle_closest (c : Circle) (hr : 0 ≤ c.radius) (p : Pt) (hp : 1 / 10 ^ 10 ≤ euclid c.center p) :
    ∃ x, c.closest p = .ret x ∧ x ∈ c.curve ∧ euclid p x = c.dist p ∧ ∀ y ∈ c.curve, c.dist p ≤ euclid p y := by
  have e : c.distFromCenter p = euclid c.center p := dist2_eq _ _
  have hpos : 0 < euclid c.center p := lt_of_lt_of_le (by norm_num) hp
  have hsq := euclid_sq c.center p
  refine ⟨c.scaleTo p (c.radius / euclid c.center p), ?_, ?_, ?_, fun y hy => dist_le c p y hy⟩
  · rw [Circle.closest, e, if_neg (by rw [geomEps]; exact not_lt.2 hp), Interp.fdiv, if_neg hpos.ne', Outcome.bind_ret]
  · show euclid _ _ = _
    rw [← pow_left_inj₀ (euclid_nonneg _ _) hr (by norm_num : (2 : ℕ) ≠ 0), euclid_sq]
    simp only [Circle.scaleTo]
    have : (c.center.1 - (c.center.1 + c.radius / euclid c.center p * (p.1 - c.center.1))) ^ 2 +
        (c.center.2 - (c.center.2 + c.radius / euclid c.center p * (p.2 - c.center.2))) ^ 2 =
        (c.radius / euclid c.center p) ^ 2 * ((c.center.1 - p.1) ^ 2 + (c.center.2 - p.2) ^ 2) := by ring
    rw [this, ← hsq, div_pow, div_mul_cancel₀ _ (by positivity)]
  · rw [Circle.dist, Circle.signedDist, e, ← pow_left_inj₀ (euclid_nonneg _ _) (abs_nonneg _) (by norm_num : (2 : ℕ) ≠ 0), euclid_sq, sq_abs]
    simp only [Circle.scaleTo]
    have : (p.1 - (c.center.1 + c.radius / euclid c.center p * (p.1 - c.center.1))) ^ 2 +
        (p.2 - (c.center.2 + c.radius / euclid c.center p * (p.2 - c.center.2))) ^ 2 =
        (1 - c.radius / euclid c.center p) ^ 2 * ((c.center.1 - p.1) ^ 2 + (c.center.2 - p.2) ^ 2) := by ring
    rw [this, ← hsq]
    field_simp

/-- **C115.**  Closer to the centre a fixed point of the circle stands for the nearest; it is farther by less than twice the tolerance. -/
theorem circle_closest_center (c : Circle) (hr : 0 ≤ c.radius) (p : Pt) (hp : euclid c.center p < 1 / 10 ^ 10) :
    ∃ x, c.closest p = .ret x ∧ x ∈ c.curve ∧ euclid p x < c.dist p + 2 / 10 ^ 10 := by
  have e : c.distFromCenter p = euclid c.center p := dist2_eq _ _
  have hx : c.pointAt 0 ∈ c.curve := (pointAt_spec c hr _).2 ⟨0, rfl⟩
  refine ⟨c.pointAt 0, by rw [Circle.closest, e, if_pos (by rw [geomEps]; exact hp)], hx, ?_⟩
  have hx' : euclid c.center (c.pointAt 0) = c.radius := hx
  have h1 := euclid_triangle p c.center (c.pointAt 0)
  rw [euclid_comm p c.center, hx'] at h1
  have h2 := neg_abs_le (c.signedDist p)
  rw [Circle.dist]
  rw [show c.signedDist p = euclid c.center p - c.radius by rw [Circle.signedDist, e]] at h2 ⊢
  have h3 : (2 : ℝ) / 10 ^ 10 = 1 / 10 ^ 10 + 1 / 10 ^ 10 := by norm_num
  rw [h3]
  linarith

/-- **C115.**  `Intersects` says whether two circles have a common point. -/
theorem circle_intersects (c o : Circle) (hc : 0 ≤ c.radius) (ho : 0 ≤ o.radius) : c.intersects o = true ↔ (c.curve ∩ o.curve).Nonempty := by
  rw [Circle.intersects, dist2_eq, Bool.and_eq_true, decide_eq_true_eq, decide_eq_true_eq]
  set d := euclid c.center o.center with hd
  constructor
  · rintro ⟨h1, h2⟩
    have hsq := euclid_sq c.center o.center
    rw [← hd] at hsq
    rcases eq_or_lt_of_le (euclid_nonneg c.center o.center) with h0 | h0
    · rw [← hd] at h0
      rw [← h0] at h2 hsq
      have hrr : c.radius = o.radius := by
        have := abs_nonpos_iff.1 h2
        linarith
      have hcc : c.center = o.center := Prod.ext
        (by nlinarith [sq_nonneg (c.center.1 - o.center.1), sq_nonneg (c.center.2 - o.center.2)])
        (by nlinarith [sq_nonneg (c.center.1 - o.center.1), sq_nonneg (c.center.2 - o.center.2)])
      have hp : c.pointAt 0 ∈ c.curve := (pointAt_spec c hc _).2 ⟨0, rfl⟩
      refine ⟨c.pointAt 0, hp, ?_⟩
      show euclid _ _ = _
      rw [← hcc, ← hrr]
      exact hp
    · rw [← hd] at h0
      obtain ⟨h3, h4⟩ := abs_le.1 h2
      -- the foot of the common chord
      set a := (d ^ 2 + c.radius ^ 2 - o.radius ^ 2) / (2 * d) with ha
      have hda : 2 * d * a = d ^ 2 + c.radius ^ 2 - o.radius ^ 2 := by rw [ha]; field_simp
      have hh : 0 ≤ c.radius ^ 2 - a ^ 2 := by
        have h5 : (2 * d) ^ 2 * (c.radius ^ 2 - a ^ 2) = (2 * d * c.radius - 2 * d * a) * (2 * d * c.radius + 2 * d * a) := by ring
        rw [hda] at h5
        have h6 : 2 * d * c.radius - (d ^ 2 + c.radius ^ 2 - o.radius ^ 2) = (o.radius - (d - c.radius)) * (o.radius + (d - c.radius)) := by ring
        have h7 : 2 * d * c.radius + (d ^ 2 + c.radius ^ 2 - o.radius ^ 2) = (d + c.radius - o.radius) * (d + c.radius + o.radius) := by ring
        have h8 : 0 ≤ (2 * d) ^ 2 * (c.radius ^ 2 - a ^ 2) := by
          rw [h5, h6, h7]
          exact mul_nonneg (mul_nonneg (by linarith) (by linarith)) (mul_nonneg (by linarith) (by linarith))
        exact nonneg_of_mul_nonneg_right h8 (by positivity)
      set h := Real.sqrt (c.radius ^ 2 - a ^ 2) with hhd
      have hh2 : h ^ 2 = c.radius ^ 2 - a ^ 2 := Real.sq_sqrt hh
      set ux := (o.center.1 - c.center.1) / d with hux
      set uy := (o.center.2 - c.center.2) / d with huy
      have hu : ux ^ 2 + uy ^ 2 = 1 := by rw [hux, huy]; field_simp; linarith
      have ox : o.center.1 = c.center.1 + d * ux := by rw [hux]; field_simp; ring
      have oy : o.center.2 = c.center.2 + d * uy := by rw [huy]; field_simp; ring
      refine ⟨(c.center.1 + a * ux - h * uy, c.center.2 + a * uy + h * ux), ?_, ?_⟩
      · show euclid _ _ = _
        rw [← pow_left_inj₀ (euclid_nonneg _ _) hc (by norm_num : (2 : ℕ) ≠ 0), euclid_sq]
        simp only
        linear_combination (a ^ 2 + h ^ 2) * hu + hh2
      · show euclid _ _ = _
        rw [← pow_left_inj₀ (euclid_nonneg _ _) ho (by norm_num : (2 : ℕ) ≠ 0), euclid_sq, ox, oy]
        simp only
        linear_combination ((d - a) ^ 2 + h ^ 2) * hu + hh2 - hda
  · rintro ⟨x, h1, h2⟩
    have h1 : euclid c.center x = c.radius := h1
    have h2 : euclid o.center x = o.radius := h2
    have t1 := euclid_triangle c.center x o.center
    have t2 := euclid_triangle c.center o.center x
    have t3 := euclid_triangle o.center c.center x
    rw [euclid_comm x o.center, h1, h2] at t1
    rw [h1, h2] at t2
    rw [euclid_comm o.center c.center, h1, h2] at t3
    exact ⟨t1, abs_le.2 ⟨by linarith, by linarith⟩⟩

/-- **C115.**  `Intersects` says whether a line meets the circle. -/
theorem circle_intersectsLine (c : Circle) (hc : 0 ≤ c.radius) (l : Lines.Line) (hl : Lines.Unit l) :
    c.intersectsLine l = true ↔ ∃ t, l.at t ∈ c.curve := by
  obtain ⟨⟨t0, ht0⟩, h1, h2⟩ := Lines.line_closest l hl c.center
  rw [Circle.intersectsLine, decide_eq_true_eq]
  constructor
  · intro h
    have hl : l.dir.1 ^ 2 + l.dir.2 ^ 2 = 1 := hl
    set s := Real.sqrt (c.radius ^ 2 - l.dist c.center ^ 2) with hs
    have hd0 : 0 ≤ l.dist c.center := abs_nonneg _
    have hs2 : s ^ 2 = c.radius ^ 2 - l.dist c.center ^ 2 := Real.sq_sqrt (by nlinarith)
    refine ⟨((c.center.1 - l.point.1) * l.dir.1 + (c.center.2 - l.point.2) * l.dir.2) + s, ?_⟩
    show euclid _ _ = _
    rw [← pow_left_inj₀ (euclid_nonneg _ _) hc (by norm_num : (2 : ℕ) ≠ 0), euclid_sq]
    have key : ∀ t, (c.center.1 - (l.at t).1) ^ 2 + (c.center.2 - (l.at t).2) ^ 2 =
        l.dist c.center ^ 2 + (t - ((c.center.1 - l.point.1) * l.dir.1 + (c.center.2 - l.point.2) * l.dir.2)) ^ 2 := by
      intro t
      rw [Lines.Line.dist, sq_abs, Lines.Line.at]
      simp only
      linear_combination ((c.center.1 - l.point.1) ^ 2 + (c.center.2 - l.point.2) ^ 2 - t ^ 2) * (-1 : ℝ) * hl
    rw [key]
    linear_combination hs2
  · rintro ⟨t, ht⟩
    have ht : euclid _ _ = _ := ht
    rw [← ht]
    exact h2 t

/-- **C115.**  The bounding box of a circle contains the disc, and each of its sides touches the circle. -/
theorem circle_boundingBox (c : Circle) (hc : 0 ≤ c.radius) : (∀ x ∈ c.disc, x ∈ Set.Icc c.boundingBox.lo c.boundingBox.hi) ∧
    (∃ x ∈ c.curve, x.1 = c.boundingBox.lo.1) ∧ (∃ x ∈ c.curve, x.1 = c.boundingBox.hi.1) ∧
    (∃ x ∈ c.curve, x.2 = c.boundingBox.lo.2) ∧ ∃ x ∈ c.curve, x.2 = c.boundingBox.hi.2 := by
  refine ⟨?_, ⟨c.pointAt Real.pi, (pointAt_spec c hc _).2 ⟨_, rfl⟩, ?_⟩, ⟨c.pointAt 0, (pointAt_spec c hc _).2 ⟨_, rfl⟩, ?_⟩,
    ⟨c.pointAt (-(Real.pi / 2)), (pointAt_spec c hc _).2 ⟨_, rfl⟩, ?_⟩, ⟨c.pointAt (Real.pi / 2), (pointAt_spec c hc _).2 ⟨_, rfl⟩, ?_⟩⟩
  · intro x hx
    have hx : euclid c.center x ≤ c.radius := hx
    have h1 : |c.center.1 - x.1| ≤ euclid c.center x := Real.abs_le_sqrt (by nlinarith [sq_nonneg (c.center.2 - x.2)])
    have h2 : |c.center.2 - x.2| ≤ euclid c.center x := Real.abs_le_sqrt (by nlinarith [sq_nonneg (c.center.1 - x.1)])
    obtain ⟨a1, a2⟩ := abs_le.1 (h1.trans hx)
    obtain ⟨b1, b2⟩ := abs_le.1 (h2.trans hx)
    refine ⟨⟨?_, ?_⟩, ⟨?_, ?_⟩⟩ <;> simp only [Circle.boundingBox] <;> linarith
  · simp [Circle.pointAt, Circle.boundingBox]; ring
  · simp [Circle.pointAt, Circle.boundingBox]
  · simp [Circle.pointAt, Circle.boundingBox]; ring
  · simp [Circle.pointAt, Circle.boundingBox]

/-- **C115.**  `Area` is the area of the disc. -/
theorem circle_area (c : Circle) (hc : 0 ≤ c.radius) : MeasureTheory.volume {z : ℂ | (z.re, z.im) ∈ c.disc} = ENNReal.ofReal c.area := by
  have : {z : ℂ | (z.re, z.im) ∈ c.disc} = Metric.closedBall (⟨c.center.1, c.center.2⟩ : ℂ) c.radius := by
    ext z
    rw [Metric.mem_closedBall, Complex.dist_eq, Complex.norm_eq_sqrt_sq_add_sq]
    show euclid _ _ ≤ _ ↔ _
    rw [euclid_comm]
    rfl
  rw [this, Complex.volume_closedBall, Circle.area, ← ENNReal.ofReal_pow hc]
  rw [show (↑NNReal.pi : ENNReal) = ENNReal.ofReal Real.pi by rw [← NNReal.coe_real_pi, ENNReal.ofReal_coe_nnreal], ← ENNReal.ofReal_mul (by positivity)]
  congr 1
  ring

/-- **C115.**  `ChordLength` is the distance of two points of the circle, for angles up to a full turn. -/
theorem chordLength_spec (c : Circle) (hc : 0 ≤ c.radius) (φ θ : ℝ) (hθ : |θ| ≤ 2 * Real.pi) :
    c.chordLength θ = euclid (c.pointAt φ) (c.pointAt (φ + θ)) := by
  have hs : 0 ≤ Real.sin (|θ| / 2) := Real.sin_nonneg_of_nonneg_of_le_pi (by positivity) (by linarith)
  have hab : Real.sin (|θ| / 2) ^ 2 = Real.sin (θ / 2) ^ 2 := by
    rcases abs_choice θ with h | h <;> rw [h]
    rw [neg_div, Real.sin_neg, neg_sq]
  rw [← pow_left_inj₀ (by rw [Circle.chordLength]; positivity) (euclid_nonneg _ _) (by norm_num : (2 : ℕ) ≠ 0), euclid_sq, Circle.chordLength, mul_pow, hab]
  simp only [Circle.pointAt]
  have h1 := Real.sin_sq_add_cos_sq φ
  have h2 := Real.sin_sq_add_cos_sq (φ + θ)
  have h3 : Real.cos φ * Real.cos (φ + θ) + Real.sin φ * Real.sin (φ + θ) = Real.cos θ := by
    rw [← Real.cos_sub, ← Real.cos_neg θ]; congr 1; ring
  have h4 : Real.cos θ = 1 - 2 * Real.sin (θ / 2) ^ 2 := by
    have := Real.cos_two_mul (θ / 2)
    rw [show 2 * (θ / 2) = θ by ring] at this
    have h5 := Real.sin_sq_add_cos_sq (θ / 2)
    linarith
  have hx : (c.center.1 + c.radius * Real.cos φ - (c.center.1 + c.radius * Real.cos (φ + θ))) ^ 2 +
      (c.center.2 + c.radius * Real.sin φ - (c.center.2 + c.radius * Real.sin (φ + θ))) ^ 2 =
      c.radius ^ 2 * ((Real.sin φ ^ 2 + Real.cos φ ^ 2) + (Real.sin (φ + θ) ^ 2 + Real.cos (φ + θ) ^ 2) -
        2 * (Real.cos φ * Real.cos (φ + θ) + Real.sin φ * Real.sin (φ + θ))) := by ring
  rw [hx, h1, h2, h3, h4]
  ring

/-- **C115**, disagreement.  For an angle of one and a half turns the chord of the unit circle is said to have length `-2`. -/
theorem chordLength_wrong : (⟨(0, 0), 1⟩ : Circle).chordLength (3 * Real.pi) = -2 := by
  rw [Circle.chordLength, abs_of_pos (by positivity), show 3 * Real.pi / 2 = Real.pi / 2 + Real.pi by ring, Real.sin_add_pi, Real.sin_pi_div_two]
  norm_num

/-- **C115.**  `Translated` and `Scaled`. -/
theorem circle_moved (c : Circle) (hc : 0 ≤ c.radius) (v : Pt) (f : ℝ) :
    (∃ o, c.translated v = .ret o ∧ ∀ x : Pt, x + v ∈ o.curve ↔ x ∈ c.curve) ∧
    (f ≤ 0 → c.scaled f = .exn (.mml "GeometryError")) ∧
    (0 < f → ∃ o, c.scaled f = .ret o ∧ ∀ x : Pt, c.center + f • (x - c.center) ∈ o.curve ↔ x ∈ c.curve) := by
  refine ⟨⟨_, (circle_new _ _).2 hc, fun x => ?_⟩, fun h => by rw [Circle.scaled, if_pos h], fun h => ⟨_, by rw [Circle.scaled, if_neg (not_le.2 h), (circle_new _ _).2 (by positivity)], fun x => ?_⟩⟩
  · show euclid _ _ = _ ↔ euclid _ _ = _
    rw [show euclid (c.center.1 + v.1, c.center.2 + v.2) (x + v) = euclid c.center x by rw [euclid, euclid]; congr 1; simp]
  · show euclid _ _ = _ ↔ euclid _ _ = _
    have : euclid c.center (c.center + f • (x - c.center)) = f * euclid c.center x := by
      rw [← pow_left_inj₀ (euclid_nonneg _ _) (mul_nonneg h.le (euclid_nonneg _ _)) (by norm_num : (2 : ℕ) ≠ 0), mul_pow, euclid_sq, euclid_sq]
      simp; ring
    rw [this, mul_comm c.radius]
    exact mul_right_inj' h.ne'

/-- The unit circle meets the hypotheses: its distance from `(2, 0)` is one, and it meets the circle around that point with the same radius. -/
example : (⟨(0, 0), 1⟩ : Circle).closest (2, 0) = .ret (1, 0) ∧ (⟨(0, 0), 1⟩ : Circle).intersects ⟨(2, 0), 1⟩ = true ∧
    (1 : ℝ) / 10 ^ 10 ≤ euclid (0, 0) (2, 0) := by
  have h : Real.sqrt 4 = 2 := by rw [show (4 : ℝ) = 2 ^ 2 by norm_num, Real.sqrt_sq (by norm_num)]
  refine ⟨?_, ?_, ?_⟩
  · rw [Circle.closest, Circle.distFromCenter, dist2]
    norm_num [h, geomEps, Interp.fdiv, Circle.scaleTo]
  · rw [Circle.intersects, dist2]
    norm_num [h]
  · rw [euclid]
    norm_num [h]

end Verif.CompGeo.CB
