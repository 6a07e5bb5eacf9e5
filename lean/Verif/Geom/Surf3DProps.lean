import Verif.Geom.Surf3D
import Verif.Geom.Plane3DProps

/-!
# Triangles and rectangles in space
-/

set_option autoImplicit false

namespace Verif.Geom.S3

open Verif.CompGeo (geomEps)
open L3 (Line vec unitVec pdist eucl go Made)
open P3 (Plane)

/-! ## Specification -/

/-- The scalar product of `b - a` and `c - a`. -/
def corner (a b c : V3 ℝ) : ℝ := (b.x - a.x) * (c.x - a.x) + (b.y - a.y) * (c.y - a.y) + (b.z - a.z) * (c.z - a.z)

/-- Twice the area of the triangle, as a vector perpendicular to it. -/
def areaVec (a b c : V3 ℝ) : V3 ℝ := V3.cross (V3.sub b a) (V3.sub c a)

/-- The combination `α a + β b + γ c` of three points. -/
def mix (α β γ : ℝ) (a b c : V3 ℝ) : V3 ℝ :=
  ⟨α * a.x + β * b.x + γ * c.x, α * a.y + β * b.y + γ * c.y, α * a.z + β * b.z + γ * c.z⟩

/-- The point `q` belongs to the triangle `a`, `b`, `c`. -/
def InTri (a b c q : V3 ℝ) : Prop := ∃ α β γ : ℝ, 0 ≤ α ∧ 0 ≤ β ∧ 0 ≤ γ ∧ α + β + γ = 1 ∧ q = mix α β γ a b c

/-! ## Triangles -/

theorem areaVec_sq (a b c : V3 ℝ) : V3.norm (areaVec a b c) ^ 2 = eucl a b ^ 2 * eucl c a ^ 2 - corner a b c ^ 2 := by
  rw [L3.norm_sq, L3.eucl_sq, L3.eucl_sq]
  simp only [areaVec, V3.cross, V3.sub, corner]; ring

theorem heron (t : Tri) : t.s * (t.s - t.a) * (t.s - t.b) * (t.s - t.c) = (V3.norm (areaVec t.p1 t.p2 t.p3) / 2) ^ 2 := by
  have ha := L3.eucl_sq t.p1 t.p2
  have hb := L3.eucl_sq t.p2 t.p3
  have hc := L3.eucl_sq t.p3 t.p1
  have h2 : eucl t.p1 t.p2 ^ 2 + eucl t.p3 t.p1 ^ 2 - eucl t.p2 t.p3 ^ 2 = 2 * corner t.p1 t.p2 t.p3 := by
    rw [ha, hb, hc, corner]; ring
  have h := areaVec_sq t.p1 t.p2 t.p3
  rw [Tri.s, Tri.a, Tri.b, Tri.c, L3.pdist_eq, L3.pdist_eq, L3.pdist_eq, div_pow, h]
  have : corner t.p1 t.p2 t.p3 = (eucl t.p1 t.p2 ^ 2 + eucl t.p3 t.p1 ^ 2 - eucl t.p2 t.p3 ^ 2) / 2 := by rw [h2]; ring
  rw [this]; ring

/-- `Area` is half the length of the vector product of two sides (and never the root of a negative number). -/
theorem area_spec (t : Tri) : t.area = .ret (V3.norm (areaVec t.p1 t.p2 t.p3) / 2) := by
  have hn : 0 ≤ V3.norm (areaVec t.p1 t.p2 t.p3) / 2 := by have := L3.norm_nonneg (areaVec t.p1 t.p2 t.p3); positivity
  rw [Tri.area, heron, if_neg (not_lt.mpr (sq_nonneg _)), Real.sqrt_sq hn]

/-- `IsRight` says whether at one of the vertices the sides have a scalar product below half the tolerance. -/
theorem isRight_spec (t : Tri) (eps : ℝ) :
    t.isRight eps = true ↔ |2 * corner t.p2 t.p1 t.p3| < eps ∨ |2 * corner t.p1 t.p2 t.p3| < eps ∨ |2 * corner t.p3 t.p1 t.p2| < eps := by
  have ha := L3.eucl_sq t.p1 t.p2
  have hb := L3.eucl_sq t.p2 t.p3
  have hc := L3.eucl_sq t.p3 t.p1
  rw [Tri.isRight, decide_eq_true_iff, Tri.a, Tri.b, Tri.c, L3.pdist_eq, L3.pdist_eq, L3.pdist_eq]
  simp only [← sq]
  rw [ha, hb, hc]
  simp only [corner]
  refine or_congr (by ring_nf) (or_congr (by ring_nf) (by ring_nf))

/-- `IsIsosceles` says whether two sides have the same length up to the tolerance; `IsEquilateral` says yes to every equilateral triangle, and only if all
sides are within twice the tolerance. -/
theorem isosceles_spec (t : Tri) {eps : ℝ} (he : 0 < eps) :
    (t.isIsosceles eps = true ↔
      |eucl t.p1 t.p2 - eucl t.p2 t.p3| < eps ∨ |eucl t.p1 t.p2 - eucl t.p3 t.p1| < eps ∨ |eucl t.p2 t.p3 - eucl t.p3 t.p1| < eps) ∧
    (eucl t.p1 t.p2 = eucl t.p2 t.p3 → eucl t.p2 t.p3 = eucl t.p3 t.p1 → t.isEquilateral eps = true) ∧
    (t.isEquilateral eps = true →
      |eucl t.p1 t.p2 - eucl t.p2 t.p3| < eps ∧ |eucl t.p1 t.p2 - eucl t.p3 t.p1| < eps ∧ |eucl t.p2 t.p3 - eucl t.p3 t.p1| < 2 * eps) := by
  rw [Tri.isIsosceles, Tri.isEquilateral, decide_eq_true_iff, decide_eq_true_iff, Tri.a, Tri.b, Tri.c, L3.pdist_eq, L3.pdist_eq, L3.pdist_eq]
  refine ⟨Iff.rfl, fun h1 h2 => ?_, fun ⟨h1, h2⟩ => ⟨h1, h2, ?_⟩⟩
  · rw [← h2, ← h1, sub_self, abs_zero]; exact ⟨he, he⟩
  · rw [abs_lt] at *; constructor <;> linarith

/-- `Centroid` is the equal mixture of the vertices, a point of the triangle. -/
theorem centroid_spec (t : Tri) : t.centroid = mix (1 / 3) (1 / 3) (1 / 3) t.p1 t.p2 t.p3 ∧ InTri t.p1 t.p2 t.p3 t.centroid := by
  have h : t.centroid = mix (1 / 3) (1 / 3) (1 / 3) t.p1 t.p2 t.p3 := by
    simp only [Tri.centroid, mix, V3.mk.injEq]; refine ⟨?_, ?_, ?_⟩ <;> ring
  exact ⟨h, 1 / 3, 1 / 3, 1 / 3, by norm_num, by norm_num, by norm_num, by norm_num, h⟩

/-- `getDefinedPlane` throws for collinear vertices and otherwise gives a plane with all points of the triangle. -/
theorem plane_spec (t : Tri) :
    (areaVec t.p1 t.p2 t.p3 = ⟨0, 0, 0⟩ → t.plane = .exn (.mml "GeometryError")) ∧
    (areaVec t.p1 t.p2 t.p3 ≠ ⟨0, 0, 0⟩ → ∃ P, t.plane = .ret P ∧ P.Unit ∧ ∀ q, InTri t.p1 t.p2 t.p3 q → P.On q) := by
  obtain ⟨h1, h2⟩ := P3.through_spec t.p1 t.p2 t.p3
  refine ⟨h1, fun h => ?_⟩
  obtain ⟨P, hP, hu, -, -, -, hon⟩ := h2 h
  refine ⟨P, hP, hu, ?_⟩
  rintro q ⟨α, β, γ, -, -, -, hs, rfl⟩
  refine (hon _).mpr ⟨β, γ, ?_⟩
  have : α = 1 - β - γ := by linarith
  simp only [mix, this, V3.mk.injEq]; refine ⟨?_, ?_, ?_⟩ <;> ring

theorem gram_eq (t : Tri) : gram (vec t.p1 t.p2) (vec t.p1 t.p3) = V3.norm (areaVec t.p1 t.p2 t.p3) ^ 2 := by
  rw [L3.norm_sq]; simp only [gram, V3.dot, vec, V3.sub, areaVec, V3.cross]; ring

theorem areaVec_ne {a b c : V3 ℝ} (h : areaVec a b c ≠ ⟨0, 0, 0⟩) : 0 < V3.norm (areaVec a b c) :=
  L3.norm_pos (fun e => h (V3.ext_iff.mpr e))

theorem gram_ne {t : Tri} (h : areaVec t.p1 t.p2 t.p3 ≠ ⟨0, 0, 0⟩) : gram (vec t.p1 t.p2) (vec t.p1 t.p3) ≠ 0 := by
  rw [gram_eq]; exact pow_ne_zero _ (areaVec_ne h).ne'

theorem inRange_ret (v w eps : ℝ) : inRange v (.ret w) eps = .ret (decide (0 ≤ v ∧ v ≤ 1 ∧ 0 ≤ w ∧ w ≤ 1 ∧ v + w ≤ 1 + eps)) := by
  rw [inRange]
  by_cases h1 : v < 0 ∨ 1 < v
  · rw [if_pos h1]; congr 1; symm; rw [decide_eq_false_iff_not]; rintro ⟨a, b, -⟩; rcases h1 with h1 | h1 <;> linarith
  rw [if_neg h1, Outcome.bind_ret]
  push Not at h1
  by_cases h2 : w < 0 ∨ 1 < w
  · rw [if_pos h2]; congr 1; symm; rw [decide_eq_false_iff_not]; rintro ⟨-, -, a, b, -⟩; rcases h2 with h2 | h2 <;> linarith
  rw [if_neg h2]
  push Not at h2
  congr 1; rw [decide_eq_decide]; tauto

/-- The coordinates solve the normal equations. -/
theorem coords {e f g : V3 ℝ} (h : gram e f ≠ 0) (v w : ℝ) :
    (V3.dot g e = v * V3.dot e e + w * V3.dot e f ∧ V3.dot g f = v * V3.dot e f + w * V3.dot f f) ↔
    v = (V3.dot f f * V3.dot g e - V3.dot e f * V3.dot g f) / gram e f ∧ w = (V3.dot e e * V3.dot g f - V3.dot e f * V3.dot g e) / gram e f := by
  rw [eq_div_iff h, eq_div_iff h]
  simp only [gram] at *
  constructor
  · rintro ⟨h1, h2⟩; rw [h1, h2]; constructor <;> ring
  · rintro ⟨h1, h2⟩
    constructor
    · apply mul_left_cancel₀ h; linear_combination (-V3.dot e e) * h1 + (-V3.dot e f) * h2
    · apply mul_left_cancel₀ h; linear_combination (-V3.dot e f) * h1 + (-V3.dot f f) * h2

/-- What `IsPointInside` decides for a proper triangle: whether the foot of the perpendicular from the point to the plane of the triangle lies in the triangle
(enlarged by the tolerance beyond the third side).  For a degenerate triangle it always says no. -/
theorem inside_spec (t : Tri) (p : V3 ℝ) (eps : ℝ) :
    (areaVec t.p1 t.p2 t.p3 = ⟨0, 0, 0⟩ → t.inside p eps = .ret false) ∧
    (areaVec t.p1 t.p2 t.p3 ≠ ⟨0, 0, 0⟩ → ∃ b, t.inside p eps = .ret b ∧
      (b = true ↔ ∃ v w q, 0 ≤ v ∧ v ≤ 1 ∧ 0 ≤ w ∧ w ≤ 1 ∧ v + w ≤ 1 + eps ∧ q = mix (1 - v - w) v w t.p1 t.p2 t.p3 ∧
        (p.x - q.x) * (t.p2.x - t.p1.x) + (p.y - q.y) * (t.p2.y - t.p1.y) + (p.z - q.z) * (t.p2.z - t.p1.z) = 0 ∧
        (p.x - q.x) * (t.p3.x - t.p1.x) + (p.y - q.y) * (t.p3.y - t.p1.y) + (p.z - q.z) * (t.p3.z - t.p1.z) = 0)) := by
  constructor
  · intro h
    have : gram (vec t.p1 t.p2) (vec t.p1 t.p3) = 0 := by rw [gram_eq, h]; norm_num [V3.norm]
    rw [Tri.inside, insideVec, if_pos this]
  · intro h
    have hg := gram_ne h
    have hc := coords (g := vec t.p1 p) hg
    refine ⟨_, by rw [Tri.inside, insideVec, if_neg hg, CompGeo.Poly.fdiv_of_ne hg, CompGeo.Poly.fdiv_of_ne hg, Outcome.bind_ret, inRange_ret], ?_⟩
    rw [decide_eq_true_iff]
    have perp : ∀ v w, (V3.dot (vec t.p1 p) (vec t.p1 t.p2) = v * V3.dot (vec t.p1 t.p2) (vec t.p1 t.p2) + w * V3.dot (vec t.p1 t.p2) (vec t.p1 t.p3) ∧
        V3.dot (vec t.p1 p) (vec t.p1 t.p3) = v * V3.dot (vec t.p1 t.p2) (vec t.p1 t.p3) + w * V3.dot (vec t.p1 t.p3) (vec t.p1 t.p3)) ↔
        ((p.x - (mix (1 - v - w) v w t.p1 t.p2 t.p3).x) * (t.p2.x - t.p1.x) + (p.y - (mix (1 - v - w) v w t.p1 t.p2 t.p3).y) * (t.p2.y - t.p1.y) +
          (p.z - (mix (1 - v - w) v w t.p1 t.p2 t.p3).z) * (t.p2.z - t.p1.z) = 0 ∧
        (p.x - (mix (1 - v - w) v w t.p1 t.p2 t.p3).x) * (t.p3.x - t.p1.x) + (p.y - (mix (1 - v - w) v w t.p1 t.p2 t.p3).y) * (t.p3.y - t.p1.y) +
          (p.z - (mix (1 - v - w) v w t.p1 t.p2 t.p3).z) * (t.p3.z - t.p1.z) = 0) := by
      intro v w
      simp only [V3.dot, vec, V3.sub, mix]
      refine and_congr ⟨fun h => ?_, fun h => ?_⟩ ⟨fun h => ?_, fun h => ?_⟩ <;> linear_combination h
    constructor
    · rintro ⟨a, b, c, d, e⟩
      exact ⟨_, _, _, a, b, c, d, e, rfl, (perp _ _).mp ((hc _ _).mpr ⟨rfl, rfl⟩)⟩
    · rintro ⟨v, w, q, a, b, c, d, e, rfl, k⟩
      obtain ⟨h1, h2⟩ := (hc v w).mp ((perp v w).mpr k)
      rw [← h1, ← h2]; exact ⟨a, b, c, d, e⟩

/-- Every point of a proper triangle is reported inside. -/
theorem inside_of_mem (t : Tri) (p : V3 ℝ) {eps : ℝ} (he : 0 ≤ eps) (h : areaVec t.p1 t.p2 t.p3 ≠ ⟨0, 0, 0⟩) (hp : InTri t.p1 t.p2 t.p3 p) :
    t.inside p eps = .ret true := by
  obtain ⟨b, hb, hiff⟩ := (inside_spec t p eps).2 h
  rw [hb, hiff.mpr]
  obtain ⟨α, β, γ, h1, h2, h3, hs, rfl⟩ := hp
  refine ⟨β, γ, mix α β γ t.p1 t.p2 t.p3, h2, by linarith, h3, by linarith, by linarith, ?_, by ring, by ring⟩
  have : α = 1 - β - γ := by linarith
  rw [this]

/-- In its plane the test is right: with tolerance zero, a point of the plane of a proper triangle is reported inside exactly when it is in the triangle. -/
theorem inside_partial (t : Tri) (P : Plane) (p : V3 ℝ) (hP : t.plane = .ret P) (hp : P.On p) :
    t.inside p 0 = .ret true ↔ InTri t.p1 t.p2 t.p3 p := by
  have h : areaVec t.p1 t.p2 t.p3 ≠ ⟨0, 0, 0⟩ := by
    intro e; rw [(plane_spec t).1 e] at hP; cases hP
  refine ⟨fun hb => ?_, inside_of_mem t p le_rfl h⟩
  obtain ⟨b, hb', hiff⟩ := (inside_spec t p 0).2 h
  rw [hb'] at hb; cases hb
  obtain ⟨v, w, q, a1, a2, a3, a4, a5, rfl, k1, k2⟩ := hiff.mp rfl
  obtain ⟨P', hP', -, -, -, -, hon⟩ := (P3.through_spec t.p1 t.p2 t.p3).2 h
  rw [Tri.plane, hP'] at hP; cases hP
  obtain ⟨s, r, rfl⟩ := (hon p).mp hp
  have hg : gram (vec t.p1 t.p2) (vec t.p1 t.p3) ≠ 0 := gram_ne h
  have hs : s = v ∧ r = w := by
    simp only [mix] at k1 k2
    simp only [gram, V3.dot, vec, V3.sub] at hg
    constructor
    · apply sub_eq_zero.mp; apply mul_left_cancel₀ hg
      linear_combination ((t.p3.x - t.p1.x) ^ 2 + (t.p3.y - t.p1.y) ^ 2 + (t.p3.z - t.p1.z) ^ 2) * k1 -
        ((t.p2.x - t.p1.x) * (t.p3.x - t.p1.x) + (t.p2.y - t.p1.y) * (t.p3.y - t.p1.y) + (t.p2.z - t.p1.z) * (t.p3.z - t.p1.z)) * k2
    · apply sub_eq_zero.mp; apply mul_left_cancel₀ hg
      linear_combination ((t.p2.x - t.p1.x) ^ 2 + (t.p2.y - t.p1.y) ^ 2 + (t.p2.z - t.p1.z) ^ 2) * k2 -
        ((t.p2.x - t.p1.x) * (t.p3.x - t.p1.x) + (t.p2.y - t.p1.y) * (t.p3.y - t.p1.y) + (t.p2.z - t.p1.z) * (t.p3.z - t.p1.z)) * k1
  refine ⟨1 - v - w, v, w, by linarith, a1, a3, by ring, ?_⟩
  rw [hs.1, hs.2]; simp only [mix, V3.mk.injEq]; refine ⟨?_, ?_, ?_⟩ <;> ring

/-- The test ignores the distance from the plane: a point a thousand units above a triangle with sides 1 is reported inside. -/
theorem inside_wrong : ∃ (t : Tri) (p : V3 ℝ), t.inside p geomEps = .ret true ∧ ∀ q, InTri t.p1 t.p2 t.p3 q → 1000 ≤ eucl p q := by
  refine ⟨⟨⟨0, 0, 0⟩, ⟨1, 0, 0⟩, ⟨0, 1, 0⟩⟩, ⟨1 / 4, 1 / 4, 1000⟩, ?_, ?_⟩
  · have h : areaVec ⟨0, 0, 0⟩ ⟨1, 0, 0⟩ ⟨0, 1, 0⟩ ≠ ⟨0, 0, 0⟩ := by simp [areaVec, V3.cross, V3.sub]
    obtain ⟨b, hb, hiff⟩ := (inside_spec ⟨⟨0, 0, 0⟩, ⟨1, 0, 0⟩, ⟨0, 1, 0⟩⟩ ⟨1 / 4, 1 / 4, 1000⟩ geomEps).2 h
    rw [hb, hiff.mpr]
    refine ⟨1 / 4, 1 / 4, _, ?_, ?_, ?_, ?_, ?_, rfl, ?_, ?_⟩ <;> norm_num [mix, geomEps]
  · rintro q ⟨α, β, γ, -, -, -, -, rfl⟩
    rw [eucl]
    refine Real.le_sqrt_of_sq_le ?_
    simp only [mix]
    nlinarith [sq_nonneg (1 / 4 - (α * 0 + β * 1 + γ * 0)), sq_nonneg (1 / 4 - (α * 0 + β * 0 + γ * 1))]

/-! ## Triangle surfaces -/

/-- A triangle written in an orthonormal frame: the first vertex, the unit vectors `X` along the first side and `Y`, the length of the first side, the height
and the foot of the height. -/
structure Frame (t : Tri) (X Y : V3 ℝ) (L k h : ℝ) : Prop where
  xx : X.x ^ 2 + X.y ^ 2 + X.z ^ 2 = 1
  yy : Y.x ^ 2 + Y.y ^ 2 + Y.z ^ 2 = 1
  xy : X.x * Y.x + X.y * Y.y + X.z * Y.z = 0
  Lpos : 0 < L
  hpos : 0 < h
  p2 : t.p2 = go t.p1 X L
  p3 : t.p3 = go (go t.p1 X k) Y h

theorem areaVec_rotate (a b c : V3 ℝ) : areaVec b c a = areaVec a b c := by
  simp only [areaVec, V3.cross, V3.sub, V3.mk.injEq]; refine ⟨?_, ?_, ?_⟩ <;> ring

theorem InTri_rotate (a b c q : V3 ℝ) : InTri b c a q ↔ InTri a b c q := by
  constructor
  · rintro ⟨α, β, γ, h1, h2, h3, hs, rfl⟩
    exact ⟨γ, α, β, h3, h1, h2, by linarith, by simp only [mix, V3.mk.injEq]; refine ⟨?_, ?_, ?_⟩ <;> ring⟩
  · rintro ⟨α, β, γ, h1, h2, h3, hs, rfl⟩
    exact ⟨β, γ, α, h2, h3, h1, by linarith, by simp only [mix, V3.mk.injEq]; refine ⟨?_, ?_, ?_⟩ <;> ring⟩

/-- The rotation keeps the cyclic order and puts the longest side first. -/
theorem rotate_spec (a b c : V3 ℝ) :
    (rotate ⟨a, b, c⟩ = ⟨a, b, c⟩ ∨ rotate ⟨a, b, c⟩ = ⟨b, c, a⟩ ∨ rotate ⟨a, b, c⟩ = ⟨c, a, b⟩) ∧
    (rotate ⟨a, b, c⟩).b ≤ (rotate ⟨a, b, c⟩).a ∧ (rotate ⟨a, b, c⟩).c ≤ (rotate ⟨a, b, c⟩).a := by
  rw [rotate]
  by_cases h1 : (Tri.mk a b c).b ≤ (Tri.mk a b c).a ∧ (Tri.mk a b c).c ≤ (Tri.mk a b c).a
  · rw [if_pos h1]; exact ⟨Or.inl rfl, h1⟩
  rw [if_neg h1]
  by_cases h2 : (Tri.mk a b c).a ≤ (Tri.mk a b c).b ∧ (Tri.mk a b c).c ≤ (Tri.mk a b c).b
  · rw [if_pos h2]
    exact ⟨Or.inr (Or.inl rfl), h2.2, h2.1⟩
  · rw [if_neg h2]
    refine ⟨Or.inr (Or.inr rfl), ?_⟩
    simp only [Tri.a, Tri.b, Tri.c] at h1 h2 ⊢
    by_cases hab : pdist a b ≤ pdist b c
    · have : pdist b c < pdist c a := by
        by_contra hc; exact h2 ⟨hab, not_lt.mp hc⟩
      exact ⟨by linarith, by linarith⟩
    · push Not at hab
      have : pdist a b < pdist c a := by
        by_contra hc; exact h1 ⟨hab.le, not_lt.mp hc⟩
      exact ⟨by linarith, by linarith⟩

theorem ne_of_area {a b c : V3 ℝ} (h : areaVec a b c ≠ ⟨0, 0, 0⟩) : a ≠ b := by
  rintro rfl; apply h; simp [areaVec, V3.cross, V3.sub]

theorem unitVec_scale {v w : V3 ℝ} {c : ℝ} (hc : 0 < c) (hw : w.x ^ 2 + w.y ^ 2 + w.z ^ 2 = 1) (e : v = V3.scale w c) :
    unitVec v = w ∧ V3.norm v = c := by
  have hn : V3.norm v = c := by
    have := L3.norm_sq v
    refine (sq_eq_sq₀ (L3.norm_nonneg v) hc.le).mp ?_
    rw [this, e]; simp only [V3.scale]; linear_combination c ^ 2 * hw
  have hz : ¬(v.x = 0 ∧ v.y = 0 ∧ v.z = 0) := fun h => by rw [L3.norm_eq_zero.mpr h] at hn; linarith
  refine ⟨?_, hn⟩
  rw [L3.unitVec_of hz, hn, e]
  ext <;> simp only [V3.scale] <;> field_simp

/-- The frame the constructor computes. -/
theorem frame_exists {t : Tri} (ha : areaVec t.p1 t.p2 t.p3 ≠ ⟨0, 0, 0⟩) :
    ∃ X Y L k h, Frame t X Y L k h ∧ Line.through t.p1 t.p2 = .ret ⟨t.p1, X⟩ ∧ Line.nearest ⟨t.p1, X⟩ t.p3 = .ret (go t.p1 X k) ∧ V3.norm (vec t.p1 t.p2) = L := by
  have hne := ne_of_area ha
  have hz : ¬((vec t.p1 t.p2).x = 0 ∧ (vec t.p1 t.p2).y = 0 ∧ (vec t.p1 t.p2).z = 0) := by
    rintro ⟨h1, h2, h3⟩; apply hne
    simp only [vec, V3.sub, sub_eq_zero] at h1 h2 h3
    ext <;> simp [h1, h2, h3]
  have hL := L3.norm_pos hz
  have hX := L3.unitVec_unit hz
  have hlin : Line.through t.p1 t.p2 = .ret ⟨t.p1, unitVec (vec t.p1 t.p2)⟩ := by
    rw [Line.through, if_neg (fun e => hne (V3.ext_iff.mpr e))]
  have hmade : Made ⟨t.p1, unitVec (vec t.p1 t.p2)⟩ := Or.inr ⟨_, _, hlin⟩
  have hp2 : t.p2 = go t.p1 (unitVec (vec t.p1 t.p2)) (V3.norm (vec t.p1 t.p2)) := by
    rw [L3.unitVec_of hz]
    ext <;> simp only [go] <;> field_simp <;> simp only [vec, V3.sub] <;> ring
  generalize unitVec (vec t.p1 t.p2) = X at *
  generalize V3.norm (vec t.p1 t.p2) = L at *
  have hnear := L3.nearest_eq hmade t.p3
  generalize hk : L3.foot ⟨t.p1, X⟩ t.p3 = k at hnear
  have hkd : (t.p3.x - t.p1.x) * X.x + (t.p3.y - t.p1.y) * X.y + (t.p3.z - t.p1.z) * X.z = k := hk
  set g : V3 ℝ := vec (go t.p1 X k) t.p3 with hg
  have hgz : ¬(g.x = 0 ∧ g.y = 0 ∧ g.z = 0) := by
    rintro ⟨h1, h2, h3⟩
    simp only [hg, vec, V3.sub, go] at h1 h2 h3
    apply ha
    have e1 : t.p3.x - t.p1.x = k * X.x := by linarith
    have e2 : t.p3.y - t.p1.y = k * X.y := by linarith
    have e3 : t.p3.z - t.p1.z = k * X.z := by linarith
    rw [areaVec, hp2]
    simp only [V3.cross, V3.sub, go, e1, e2, e3, V3.mk.injEq]
    refine ⟨?_, ?_, ?_⟩ <;> ring
  have hgp := L3.norm_pos hgz
  have hY := L3.unitVec_unit hgz
  refine ⟨X, unitVec g, L, k, V3.norm g, ⟨hX, hY, ?_, hL, hgp, hp2, ?_⟩, hlin, hnear, rfl⟩
  · rw [L3.unitVec_of hgz]
    simp only
    have : X.x * g.x + X.y * g.y + X.z * g.z = 0 := by
      simp only [hg, vec, V3.sub, go]; linear_combination hkd - k * hX
    field_simp; rw [this, mul_zero]
  · rw [L3.unitVec_of hgz]
    ext <;> simp only [go] <;> field_simp <;> simp only [hg, vec, V3.sub, go] <;> ring

theorem Frame.dist12 {t : Tri} {X Y : V3 ℝ} {L k h : ℝ} (f : Frame t X Y L k h) : pdist t.p1 t.p2 ^ 2 = L ^ 2 := by
  rw [L3.pdist_eq, L3.eucl_sq, f.p2]; simp only [go]; linear_combination L ^ 2 * f.xx

theorem Frame.dist23 {t : Tri} {X Y : V3 ℝ} {L k h : ℝ} (f : Frame t X Y L k h) : pdist t.p2 t.p3 ^ 2 = (L - k) ^ 2 + h ^ 2 := by
  rw [L3.pdist_eq, L3.eucl_sq, f.p2, f.p3]; simp only [go]; linear_combination (L - k) ^ 2 * f.xx + h ^ 2 * f.yy - 2 * (L - k) * h * f.xy

theorem Frame.dist31 {t : Tri} {X Y : V3 ℝ} {L k h : ℝ} (f : Frame t X Y L k h) : pdist t.p3 t.p1 ^ 2 = k ^ 2 + h ^ 2 := by
  rw [L3.pdist_eq, L3.eucl_sq, f.p3]; simp only [go]; linear_combination k ^ 2 * f.xx + h ^ 2 * f.yy + 2 * k * h * f.xy

/-- If the first side is the longest, the foot of the height is inside it. -/
theorem Frame.foot {t : Tri} {X Y : V3 ℝ} {L k h : ℝ} (f : Frame t X Y L k h) (h1 : t.b ≤ t.a) (h2 : t.c ≤ t.a) : 0 < k ∧ k < L := by
  simp only [Tri.a, Tri.b, Tri.c] at h1 h2
  have n1 : 0 ≤ pdist t.p2 t.p3 := Real.sqrt_nonneg _
  have n2 : 0 ≤ pdist t.p3 t.p1 := Real.sqrt_nonneg _
  have s1 := pow_le_pow_left₀ n1 h1 2
  have s2 := pow_le_pow_left₀ n2 h2 2
  rw [f.dist12] at s1 s2
  rw [f.dist23] at s1
  rw [f.dist31] at s2
  have hL := f.Lpos
  have hh := f.hpos
  constructor
  · by_contra hc; push Not at hc; nlinarith [mul_pos hh hh]
  · by_contra hc; push Not at hc; nlinarith [mul_pos hh hh]

theorem cross_unit {X Y : V3 ℝ} (hx : X.x ^ 2 + X.y ^ 2 + X.z ^ 2 = 1) (hy : Y.x ^ 2 + Y.y ^ 2 + Y.z ^ 2 = 1)
    (hxy : X.x * Y.x + X.y * Y.y + X.z * Y.z = 0) :
    (V3.cross X Y).x ^ 2 + (V3.cross X Y).y ^ 2 + (V3.cross X Y).z ^ 2 = 1 := by
  have : (V3.cross X Y).x ^ 2 + (V3.cross X Y).y ^ 2 + (V3.cross X Y).z ^ 2 =
      (X.x ^ 2 + X.y ^ 2 + X.z ^ 2) * (Y.x ^ 2 + Y.y ^ 2 + Y.z ^ 2) - (X.x * Y.x + X.y * Y.y + X.z * Y.z) ^ 2 := by
    simp only [V3.cross]; ring
  rw [this, hx, hy, hxy]; ring

/-- The members computed from a frame. -/
theorem Frame.surf {t : Tri} {X Y : V3 ℝ} {L k h : ℝ} (f : Frame t X Y L k h) (hk : 0 < k) :
    surfOf t (go t.p1 X k) = ⟨t, L, h, t.p1, t.centroid, X, Y, V3.cross X Y, k⟩ := by
  have hx := unitVec_scale (v := vec t.p1 t.p2) f.Lpos f.xx (by rw [f.p2]; simp only [vec, V3.sub, go, V3.scale, V3.mk.injEq]; refine ⟨?_, ?_, ?_⟩ <;> ring)
  have hy := unitVec_scale (v := vec (go t.p1 X k) t.p3) f.hpos f.yy
    (by rw [f.p3]; simp only [vec, V3.sub, go, V3.scale, V3.mk.injEq]; refine ⟨?_, ?_, ?_⟩ <;> ring)
  have hc := cross_unit f.xx f.yy f.xy
  have hcz : unitVec (V3.cross X Y) = V3.cross X Y := (unitVec_scale one_pos hc (by ext <;> simp only [V3.scale] <;> ring)).1
  have d1 : pdist t.p1 t.p2 = L := (sq_eq_sq₀ (Real.sqrt_nonneg _) f.Lpos.le).mp f.dist12
  have d2 : pdist (go t.p1 X k) t.p3 = h := by
    rw [L3.pdist_eq, L3.eucl_comm, L3.eucl_eq_norm]; exact hy.2
  have d3 : pdist (go t.p1 X k) t.p1 = k := by
    rw [L3.pdist_eq]
    refine (sq_eq_sq₀ (L3.eucl_nonneg _ _) hk.le).mp ?_
    rw [L3.eucl_sq]; simp only [go]; linear_combination k ^ 2 * f.xx
  rw [surfOf, hx.1, hy.1, hcz, d1, d2, d3]

/-- The surface of a proper triangle.  The vertices are rotated so that the longest side is the first.  The parameter domain `0 ≤ u ≤ maxX`, `0 ≤ w ≤ getMaxW u`
is mapped onto the triangle, without changing lengths.  The normal is a unit vector in the direction given by the order of the vertices, and the sides of the
domain give the area. -/
theorem surf_spec (p1 p2 p3 : V3 ℝ) (ha : areaVec p1 p2 p3 ≠ ⟨0, 0, 0⟩) :
    ∃ s, TriSurf.new p1 p2 p3 = .ret s ∧
      (s.tri = ⟨p1, p2, p3⟩ ∨ s.tri = ⟨p2, p3, p1⟩ ∨ s.tri = ⟨p3, p1, p2⟩) ∧
      s.maxX = max (eucl p1 p2) (max (eucl p2 p3) (eucl p3 p1)) ∧
      (∀ q, InTri p1 p2 p3 q ↔ ∃ u w m, 0 ≤ u ∧ u ≤ s.maxX ∧ s.maxW u = .ret m ∧ 0 ≤ w ∧ w ≤ m ∧ q = s.at u w) ∧
      (∀ u w u' w', eucl (s.at u w) (s.at u' w') = Real.sqrt ((u - u') ^ 2 + (w - w') ^ 2)) ∧
      V3.norm s.normal = 1 ∧ areaVec p1 p2 p3 = V3.scale s.normal (s.maxX * s.maxY) ∧ 0 < s.maxX * s.maxY ∧
      s.center = mix (1 / 3) (1 / 3) (1 / 3) p1 p2 p3 := by
  obtain ⟨hrot, hb, hc⟩ := rotate_spec p1 p2 p3
  rw [TriSurf.new]
  generalize rotate ⟨p1, p2, p3⟩ = t at *
  have hA : areaVec t.p1 t.p2 t.p3 = areaVec p1 p2 p3 := by
    rcases hrot with rfl | rfl | rfl
    · rfl
    · exact areaVec_rotate p1 p2 p3
    · exact (areaVec_rotate p3 p1 p2).symm
  have hT : ∀ q, InTri p1 p2 p3 q ↔ InTri t.p1 t.p2 t.p3 q := by
    intro q
    rcases hrot with rfl | rfl | rfl
    · rfl
    · exact (InTri_rotate p1 p2 p3 q).symm
    · exact InTri_rotate p3 p1 p2 q
  have hC : t.centroid = mix (1 / 3) (1 / 3) (1 / 3) p1 p2 p3 := by
    rcases hrot with rfl | rfl | rfl <;>
    · simp only [Tri.centroid, mix, V3.mk.injEq]; refine ⟨?_, ?_, ?_⟩ <;> ring
  have hM : max (eucl p1 p2) (max (eucl p2 p3) (eucl p3 p1)) = t.a := by
    simp only [Tri.a, Tri.b, Tri.c, L3.pdist_eq] at hb hc ⊢
    rcases hrot with rfl | rfl | rfl
    · rw [max_eq_left]; exact max_le hb hc
    · rw [max_eq_right, max_eq_left]
      · exact hb
      · exact le_max_of_le_left hc
    · rw [max_eq_right, max_eq_right]
      · exact hc
      · exact le_max_of_le_right hb
  obtain ⟨X, Y, L, k, h, f, hl, hn, hL⟩ := frame_exists (t := t) (by rw [hA]; exact ha)
  obtain ⟨hk, hkL⟩ := f.foot hb hc
  have hs : TriSurf.ofRotated t = .ret ⟨t, L, h, t.p1, t.centroid, X, Y, V3.cross X Y, k⟩ := by
    rw [TriSurf.ofRotated, hl, Outcome.bind_ret, hn, Outcome.bind_ret, f.surf hk]
  refine ⟨_, hs, hrot, ?_, ?_, ?_, ?_, ?_, mul_pos f.Lpos f.hpos, hC⟩
  · rw [hM, Tri.a]; exact ((sq_eq_sq₀ (Real.sqrt_nonneg _) f.Lpos.le).mp f.dist12).symm
  · intro q
    rw [hT]
    have hat : ∀ u w : ℝ, TriSurf.at ⟨t, L, h, t.p1, t.centroid, X, Y, V3.cross X Y, k⟩ u w =
        mix (1 - (u - w / h * k) / L - w / h) ((u - w / h * k) / L) (w / h) t.p1 t.p2 t.p3 := by
      intro u w
      have := f.Lpos.ne'
      have := f.hpos.ne'
      rw [f.p3, f.p2]
      simp only [TriSurf.at, V3.add, V3.scale, mix, go, V3.mk.injEq]
      refine ⟨?_, ?_, ?_⟩ <;> field_simp <;> ring
    have hL0 := f.Lpos
    have hh := f.hpos
    have hmax1 : ∀ u, u < k → TriSurf.maxW ⟨t, L, h, t.p1, t.centroid, X, Y, V3.cross X Y, k⟩ u = .ret (u / k * h) := by
      intro u hu
      rw [TriSurf.maxW]; simp only
      rw [if_pos hu, CompGeo.Poly.fdiv_of_ne hk.ne', Outcome.bind_ret]; ring_nf
    have hmax2 : ∀ u, ¬u < k → TriSurf.maxW ⟨t, L, h, t.p1, t.centroid, X, Y, V3.cross X Y, k⟩ u = .ret ((L - u) / (L - k) * h) := by
      intro u hu
      rw [TriSurf.maxW]; simp only
      rw [if_neg hu, CompGeo.Poly.fdiv_of_ne (by linarith : L - k ≠ 0), Outcome.bind_ret]; ring_nf
    constructor
    · rintro ⟨α, β, γ, h1, h2, h3, hsum, rfl⟩
      have hα : α = 1 - β - γ := by linarith
      have hge : γ ≤ 1 := by linarith
      refine ⟨β * L + γ * k, γ * h, ?_⟩
      have hq : mix α β γ t.p1 t.p2 t.p3 = TriSurf.at ⟨t, L, h, t.p1, t.centroid, X, Y, V3.cross X Y, k⟩ (β * L + γ * k) (γ * h) := by
        rw [hat, hα]
        have e1 : γ * h / h = γ := by field_simp
        rw [e1]
        have e2 : (β * L + γ * k - γ * k) / L = β := by field_simp; ring
        rw [e2]
      have hu1 : β * L + γ * k ≤ L := by nlinarith [mul_nonneg h3 (sub_nonneg.mpr hkL.le)]
      by_cases hu : β * L + γ * k < k
      · refine ⟨_, by positivity, hu1, hmax1 _ hu, by positivity, ?_, hq⟩
        rw [div_mul_eq_mul_div, le_div_iff₀ hk]; nlinarith [mul_nonneg h2 (mul_pos hL0 hh).le]
      · refine ⟨_, by positivity, hu1, hmax2 _ hu, by positivity, ?_, hq⟩
        rw [div_mul_eq_mul_div, le_div_iff₀ (by linarith)]
        have : γ * (L - k) ≤ L - (β * L + γ * k) := by nlinarith
        nlinarith
    · rintro ⟨u, w, m, hu0, hu1, hm, hw0, hw1, rfl⟩
      rw [hat]
      have key : w * k ≤ u * h ∧ w * (L - k) ≤ (L - u) * h := by
        by_cases hu : u < k
        · rw [hmax1 u hu] at hm; cases hm
          rw [div_mul_eq_mul_div, le_div_iff₀ hk] at hw1
          refine ⟨hw1, ?_⟩
          have : w * k ≤ k * h := by nlinarith
          have : w ≤ h := by nlinarith
          nlinarith
        · rw [hmax2 u hu] at hm; cases hm
          push Not at hu
          rw [div_mul_eq_mul_div, le_div_iff₀ (by linarith)] at hw1
          refine ⟨?_, hw1⟩
          have : w * (L - k) ≤ (L - k) * h := by nlinarith
          have : w ≤ h := by nlinarith
          nlinarith
      have e1 : 0 ≤ (u - w / h * k) / L := by
        apply div_nonneg _ hL0.le
        rw [sub_nonneg, div_mul_eq_mul_div, div_le_iff₀ hh]; exact key.1
      have e2 : 0 ≤ 1 - (u - w / h * k) / L - w / h := by
        have : 1 - (u - w / h * k) / L - w / h = ((L - u) * h - w * (L - k)) / (L * h) := by field_simp; ring
        rw [this]; apply div_nonneg _ (by positivity); linarith [key.2]
      exact ⟨_, _, _, e2, e1, by positivity, by ring, rfl⟩
  · intro u w u' w'
    rw [eucl]; congr 1
    simp only [TriSurf.at, V3.add, V3.scale]
    linear_combination (u - u') ^ 2 * f.xx + (w - w') ^ 2 * f.yy + 2 * (u - u') * (w - w') * f.xy
  · refine (sq_eq_sq₀ (L3.norm_nonneg _) zero_le_one).mp ?_
    rw [L3.norm_sq, cross_unit f.xx f.yy f.xy]; norm_num
  · rw [← hA, areaVec, f.p3, f.p2]
    simp only [V3.cross, V3.sub, go, V3.scale, V3.mk.injEq]
    refine ⟨?_, ?_, ?_⟩ <;> ring

/-- A triangle whose three vertices coincide is refused. -/
theorem surf_point (p : V3 ℝ) : TriSurf.new p p p = .exn (.mml "GeometryError") := by
  have : rotate ⟨p, p, p⟩ = ⟨p, p, p⟩ := by
    rcases (rotate_spec p p p).1 with h | h | h <;> exact h
  rw [TriSurf.new, this, TriSurf.ofRotated, Line.through, if_pos ⟨rfl, rfl, rfl⟩, Outcome.bind_exn]

/-- A triangle with collinear vertices that do not all coincide is accepted, with a null height and a null normal vector. -/
theorem surf_collinear (p1 p2 p3 : V3 ℝ) (ha : areaVec p1 p2 p3 = ⟨0, 0, 0⟩) (hne : ¬(p1 = p2 ∧ p2 = p3)) :
    ∃ s, TriSurf.new p1 p2 p3 = .ret s ∧ s.maxY = 0 ∧ s.localY = ⟨0, 0, 0⟩ ∧ s.normal = ⟨0, 0, 0⟩ := by
  obtain ⟨hrot, hb, hc⟩ := rotate_spec p1 p2 p3
  rw [TriSurf.new]
  generalize rotate ⟨p1, p2, p3⟩ = t at *
  have hA : areaVec t.p1 t.p2 t.p3 = ⟨0, 0, 0⟩ := by
    rw [← ha]
    rcases hrot with rfl | rfl | rfl
    · rfl
    · exact areaVec_rotate p1 p2 p3
    · exact (areaVec_rotate p3 p1 p2).symm
  have h12 : t.p1 ≠ t.p2 := by
    intro e
    simp only [Tri.a, Tri.b, Tri.c, L3.pdist_eq] at hb hc
    rw [e, L3.eucl_eq_zero.mpr rfl] at hb
    have e2 : t.p2 = t.p3 := L3.eucl_eq_zero.mp (le_antisymm hb (L3.eucl_nonneg _ _))
    apply hne
    rcases hrot with rfl | rfl | rfl
    · exact ⟨e, e2⟩
    · exact ⟨(e.trans e2).symm, e⟩
    · exact ⟨e2, (e.trans e2).symm⟩
  have hlin : Line.through t.p1 t.p2 = .ret ⟨t.p1, unitVec (vec t.p1 t.p2)⟩ := by
    rw [Line.through, if_neg (fun e => h12 (V3.ext_iff.mpr e))]
  have hmade : Made ⟨t.p1, unitVec (vec t.p1 t.p2)⟩ := Or.inr ⟨_, _, hlin⟩
  have hon : Line.On ⟨t.p1, unitVec (vec t.p1 t.p2)⟩ t.p3 := by
    obtain ⟨l, hl, -, -, -, hq⟩ := (L3.through_spec t.p1 t.p2).2 h12
    rw [hlin] at hl; cases hl
    rw [hq]
    have hz : ¬((V3.sub t.p2 t.p1).x = 0 ∧ (V3.sub t.p2 t.p1).y = 0 ∧ (V3.sub t.p2 t.p1).z = 0) := by
      rintro ⟨h1, h2, h3⟩; apply h12
      simp only [V3.sub, sub_eq_zero] at h1 h2 h3
      ext <;> simp [h1, h2, h3]
    have hn := L3.norm_pos hz
    have hs := L3.norm_sq (V3.sub t.p2 t.p1)
    have hn2 : (V3.sub t.p2 t.p1).x ^ 2 + (V3.sub t.p2 t.p1).y ^ 2 + (V3.sub t.p2 t.p1).z ^ 2 ≠ 0 := by rw [← hs]; positivity
    refine ⟨corner t.p1 t.p2 t.p3 / ((V3.sub t.p2 t.p1).x ^ 2 + (V3.sub t.p2 t.p1).y ^ 2 + (V3.sub t.p2 t.p1).z ^ 2), ?_⟩
    simp only [areaVec, V3.cross, V3.sub, V3.mk.injEq] at hA
    obtain ⟨a1, a2, a3⟩ := hA
    simp only [V3.sub] at hn2
    ext <;> simp only [go, V3.sub, corner] <;> field_simp
    · linear_combination (t.p2.y - t.p1.y) * (-a3) + (t.p2.z - t.p1.z) * a2
    · linear_combination (t.p2.z - t.p1.z) * (-a1) + (t.p2.x - t.p1.x) * a3
    · linear_combination (t.p2.x - t.p1.x) * (-a2) + (t.p2.y - t.p1.y) * a1
  obtain ⟨d, q, hd, hnear, hqon, hdq, hmin⟩ := L3.dist_spec hmade t.p3
  have hq : t.p3 = q := by
    have h0 := (hmin t.p3 hon).1
    rw [L3.eucl_eq_zero.mpr rfl] at h0
    have : d = 0 := le_antisymm h0 (by rw [← hdq]; exact L3.eucl_nonneg _ _)
    rw [this] at hdq; exact L3.eucl_eq_zero.mp hdq
  subst hq
  have hz : vec t.p3 t.p3 = ⟨0, 0, 0⟩ := by simp [vec, V3.sub]
  have hu : unitVec (⟨0, 0, 0⟩ : V3 ℝ) = ⟨0, 0, 0⟩ := by rw [unitVec, if_pos (by norm_num [V3.norm])]
  refine ⟨surfOf t t.p3, by rw [TriSurf.ofRotated, hlin, Outcome.bind_ret, hnear, Outcome.bind_ret], ?_, ?_, ?_⟩
  · simp [surfOf, pdist]
  · rw [surfOf]; simp only [hz, hu]
  · rw [surfOf]; simp only [hz, hu, V3.cross, mul_zero, sub_zero]

/-! ## Rectangles -/

/-- The point `q` belongs to the parallelogram with the sides `b - a` and `d - a`. -/
def InPar (a b d q : V3 ℝ) : Prop := ∃ s t : ℝ, 0 ≤ s ∧ s ≤ 1 ∧ 0 ≤ t ∧ t ≤ 1 ∧ q = mix (1 - s - t) s t a b d

/-- The quadrilateral is a parallelogram. -/
def IsPar (a b c d : V3 ℝ) : Prop := V3.add a c = V3.add b d

/-- What the constructor accepts: three vertices that are not collinear and a fourth within the tolerance of their plane. -/
theorem rect_ok (p1 p2 p3 p4 : V3 ℝ) :
    (areaVec p1 p2 p3 = ⟨0, 0, 0⟩ → RectSurf.new p1 p2 p3 p4 = .exn (.mml "GeometryError")) ∧
    (areaVec p1 p2 p3 ≠ ⟨0, 0, 0⟩ → ∃ P, Plane.through p1 p2 p3 = .ret P ∧
      ((∀ q, P.On q → geomEps ≤ eucl p4 q) → RectSurf.new p1 p2 p3 p4 = .exn (.mml "GeometryError")) ∧
      ((∃ q, P.On q ∧ eucl p4 q < geomEps) → ∃ s, RectSurf.new p1 p2 p3 p4 = .ret s)) := by
  obtain ⟨h1, h2⟩ := P3.through_spec p1 p2 p3
  constructor
  · intro h; rw [RectSurf.new, h1 h, Outcome.bind_exn]
  · intro h
    obtain ⟨P, hP, hu, -⟩ := h2 h
    have hon := P3.onPlane_partial hu p4 geomEps
    refine ⟨P, hP, fun hf => ?_, fun hq => ?_⟩
    · have : P.onPlane p4 geomEps = false := by
        rw [← Bool.not_eq_true, hon]; rintro ⟨q, hq, hd⟩; linarith [hf q hq]
      rw [RectSurf.new, hP, Outcome.bind_ret, this]; rfl
    · have := hon.mpr hq
      refine ⟨_, by rw [RectSurf.new, hP, Outcome.bind_ret, this]; rfl⟩

/-- The surface of a parallelogram: the parameter domain is mapped onto it, the area and the normal are right, and if it is a rectangle lengths are kept. -/
theorem rect_partial (p1 p2 p3 p4 : V3 ℝ) (hp : IsPar p1 p2 p3 p4) (ha : areaVec p1 p2 p4 ≠ ⟨0, 0, 0⟩) :
    ∃ s, RectSurf.new p1 p2 p3 p4 = .ret s ∧ s.maxX = eucl p1 p2 / 2 ∧ s.maxY = eucl p1 p4 / 2 ∧
      (∀ q, InPar p1 p2 p4 q ↔ ∃ u w, -s.maxX ≤ u ∧ u ≤ s.maxX ∧ -s.maxY ≤ w ∧ w ≤ s.maxY ∧ q = s.at u w) ∧
      s.at (-s.maxX) (-s.maxY) = p1 ∧ s.at s.maxX (-s.maxY) = p2 ∧ s.at s.maxX s.maxY = p3 ∧ s.at (-s.maxX) s.maxY = p4 ∧
      s.area = V3.norm (areaVec p1 p2 p4) ∧ V3.norm s.normal = 1 ∧ areaVec p1 p2 p4 = V3.scale s.normal s.area ∧
      (corner p1 p2 p4 = 0 → s.area = eucl p1 p2 * eucl p1 p4 ∧
        ∀ u w u' w', eucl (s.at u w) (s.at u' w') = Real.sqrt ((u - u') ^ 2 + (w - w') ^ 2)) := by
  have hp3 : p3 = ⟨p2.x + p4.x - p1.x, p2.y + p4.y - p1.y, p2.z + p4.z - p1.z⟩ := by
    simp only [IsPar, V3.add, V3.mk.injEq] at hp
    ext <;> simp only <;> linarith [hp.1, hp.2.1, hp.2.2]
  have ha3 : areaVec p1 p2 p3 = areaVec p1 p2 p4 := by
    rw [hp3]; simp only [areaVec, V3.cross, V3.sub, V3.mk.injEq]; refine ⟨?_, ?_, ?_⟩ <;> ring
  obtain ⟨P, hP, hu, -, -, -, hon⟩ := (P3.through_spec p1 p2 p3).2 (by rw [← areaVec, ha3]; exact ha)
  have h4 : P.On p4 := by
    refine (hon p4).mpr ⟨-1, 1, ?_⟩
    rw [hp3]; ext <;> simp only <;> ring
  have hon4 : P.onPlane p4 geomEps = true :=
    (P3.onPlane_partial hu p4 geomEps).mpr ⟨p4, h4, by rw [L3.eucl_eq_zero.mpr rfl]; norm_num [geomEps]⟩
  have ha' : areaVec p1 p4 p2 ≠ ⟨0, 0, 0⟩ := by
    intro e; apply ha
    simp only [areaVec, V3.cross, V3.sub, V3.mk.injEq] at e ⊢
    refine ⟨?_, ?_, ?_⟩ <;> linarith [e.1, e.2.1, e.2.2]
  have hx : ∃ X : V3 ℝ, X.x ^ 2 + X.y ^ 2 + X.z ^ 2 = 1 ∧ unitVec (vec p1 p2) = X ∧ vec p1 p2 = V3.scale X (eucl p1 p2) ∧ 0 < eucl p1 p2 := by
    have hne := ne_of_area ha
    have hz : ¬((vec p1 p2).x = 0 ∧ (vec p1 p2).y = 0 ∧ (vec p1 p2).z = 0) := by
      rintro ⟨h1, h2, h3⟩; apply hne
      simp only [vec, V3.sub, sub_eq_zero] at h1 h2 h3
      ext <;> simp [h1, h2, h3]
    have hn := L3.norm_pos hz
    have he : eucl p1 p2 = V3.norm (vec p1 p2) := by rw [L3.eucl_comm, L3.eucl_eq_norm]; rfl
    refine ⟨unitVec (vec p1 p2), L3.unitVec_unit hz, rfl, ?_, by rw [he]; exact hn⟩
    rw [he, L3.unitVec_of hz]; ext <;> simp only [V3.scale] <;> field_simp
  have hy : ∃ Y : V3 ℝ, Y.x ^ 2 + Y.y ^ 2 + Y.z ^ 2 = 1 ∧ unitVec (vec p1 p4) = Y ∧ vec p1 p4 = V3.scale Y (eucl p1 p4) ∧ 0 < eucl p1 p4 := by
    have hne := ne_of_area ha'
    have hz : ¬((vec p1 p4).x = 0 ∧ (vec p1 p4).y = 0 ∧ (vec p1 p4).z = 0) := by
      rintro ⟨h1, h2, h3⟩; apply hne
      simp only [vec, V3.sub, sub_eq_zero] at h1 h2 h3
      ext <;> simp [h1, h2, h3]
    have hn := L3.norm_pos hz
    have he : eucl p1 p4 = V3.norm (vec p1 p4) := by rw [L3.eucl_comm, L3.eucl_eq_norm]; rfl
    refine ⟨unitVec (vec p1 p4), L3.unitVec_unit hz, rfl, ?_, by rw [he]; exact hn⟩
    rw [he, L3.unitVec_of hz]; ext <;> simp only [V3.scale] <;> field_simp
  obtain ⟨X, xx, eX, dX, lX⟩ := hx
  obtain ⟨Y, yy, eY, dY, lY⟩ := hy
  have hnew : RectSurf.new p1 p2 p3 p4 = .ret ⟨p1, p2, p3, p4, eucl p1 p2 / 2, eucl p1 p4 / 2,
      ⟨(p1.x + p2.x + p3.x + p4.x) / 4, (p1.y + p2.y + p3.y + p4.y) / 4, (p1.z + p2.z + p3.z + p4.z) / 4⟩, X, Y⟩ := by
    rw [RectSurf.new, hP, Outcome.bind_ret, hon4, eX, eY, L3.pdist_eq, L3.pdist_eq]; rfl
  generalize eucl p1 p2 = L at *
  generalize eucl p1 p4 = M at *
  simp only [vec, V3.sub, V3.scale, V3.mk.injEq] at dX dY
  have hat : ∀ u w : ℝ, RectSurf.at ⟨p1, p2, p3, p4, L / 2, M / 2,
      ⟨(p1.x + p2.x + p3.x + p4.x) / 4, (p1.y + p2.y + p3.y + p4.y) / 4, (p1.z + p2.z + p3.z + p4.z) / 4⟩, X, Y⟩ u w =
      ⟨p1.x + (u + L / 2) * X.x + (w + M / 2) * Y.x, p1.y + (u + L / 2) * X.y + (w + M / 2) * Y.y, p1.z + (u + L / 2) * X.z + (w + M / 2) * Y.z⟩ := by
    intro u w
    rw [hp3]
    simp only [RectSurf.at, V3.add, V3.scale, V3.mk.injEq]
    refine ⟨?_, ?_, ?_⟩
    · linear_combination dX.1 / 2 + dY.1 / 2
    · linear_combination dX.2.1 / 2 + dY.2.1 / 2
    · linear_combination dX.2.2 / 2 + dY.2.2 / 2
  have hN := areaVec_ne ha
  have hzN : ¬((areaVec p1 p2 p4).x = 0 ∧ (areaVec p1 p2 p4).y = 0 ∧ (areaVec p1 p2 p4).z = 0) := fun e => ha (V3.ext_iff.mpr e)
  refine ⟨_, hnew, rfl, rfl, ?_, ?_, ?_, ?_, ?_, rfl, ?_, ?_, ?_⟩
  · intro q
    constructor
    · rintro ⟨s, t, s0, s1, t0, t1, rfl⟩
      refine ⟨s * L - L / 2, t * M - M / 2, ?_, ?_, ?_, ?_, ?_⟩
      · simp only; nlinarith
      · simp only; nlinarith
      · simp only; nlinarith
      · simp only; nlinarith
      · rw [hat]; simp only [mix, V3.mk.injEq]
        refine ⟨?_, ?_, ?_⟩
        · linear_combination s * dX.1 + t * dY.1
        · linear_combination s * dX.2.1 + t * dY.2.1
        · linear_combination s * dX.2.2 + t * dY.2.2
    · rintro ⟨u, w, u0, u1, w0, w1, rfl⟩
      simp only at u0 u1 w0 w1
      refine ⟨(u + L / 2) / L, (w + M / 2) / M, div_nonneg (by linarith) lX.le, ?_, div_nonneg (by linarith) lY.le, ?_, ?_⟩
      · rw [div_le_one lX]; linarith
      · rw [div_le_one lY]; linarith
      · rw [hat]
        have k1 : (u + L / 2) / L * L = u + L / 2 := by field_simp
        have k2 : (w + M / 2) / M * M = w + M / 2 := by field_simp
        generalize (u + L / 2) / L = s at *
        generalize (w + M / 2) / M = t at *
        rw [← k1, ← k2]
        simp only [mix, V3.mk.injEq]
        refine ⟨?_, ?_, ?_⟩
        · linear_combination -s * dX.1 - t * dY.1
        · linear_combination -s * dX.2.1 - t * dY.2.1
        · linear_combination -s * dX.2.2 - t * dY.2.2
  · rw [hat]; ext <;> simp only <;> ring
  · rw [hat]; ext <;> simp only
    · linear_combination -dX.1
    · linear_combination -dX.2.1
    · linear_combination -dX.2.2
  · rw [hat, hp3]; ext <;> simp only
    · linear_combination -dX.1 - dY.1
    · linear_combination -dX.2.1 - dY.2.1
    · linear_combination -dX.2.2 - dY.2.2
  · rw [hat]; ext <;> simp only
    · linear_combination -dY.1
    · linear_combination -dY.2.1
    · linear_combination -dY.2.2
  · refine (sq_eq_sq₀ (L3.norm_nonneg _) zero_le_one).mp ?_
    rw [L3.norm_sq, one_pow]; exact L3.unitVec_unit hzN
  · simp only [RectSurf.normal, RectSurf.area]
    change areaVec p1 p2 p4 = V3.scale (unitVec (areaVec p1 p2 p4)) (V3.norm (areaVec p1 p2 p4))
    rw [L3.unitVec_of hzN]; ext <;> simp only [V3.scale] <;> field_simp
  · intro hc
    simp only [corner, dX.1, dX.2.1, dX.2.2, dY.1, dY.2.1, dY.2.2] at hc
    have xy : X.x * Y.x + X.y * Y.y + X.z * Y.z = 0 := by
      apply mul_left_cancel₀ (mul_pos lX lY).ne'; linear_combination hc
    constructor
    · refine (sq_eq_sq₀ (L3.norm_nonneg _) (mul_pos lX lY).le).mp ?_
      simp only [L3.norm_sq, V3.cross, vec, V3.sub, dX.1, dX.2.1, dX.2.2, dY.1, dY.2.1, dY.2.2]
      have := cross_unit xx yy xy
      simp only [V3.cross] at this
      linear_combination L ^ 2 * M ^ 2 * this
    · intro u w u' w'
      rw [hat, hat, eucl]; congr 1
      linear_combination (u - u') ^ 2 * xx + (w - w') ^ 2 * yy + 2 * (u - u') * (w - w') * xy

/-- Quadrilaterals that are no parallelograms are accepted too, and then nothing is right: for the trapezoid (0,0), (3,0), (2,1), (1,1), which has area 2,
`getArea` returns 3 and no corner of the parameter domain is mapped to the vertex (0,0). -/
theorem rect_wrong : ∃ s, RectSurf.new ⟨0, 0, 0⟩ ⟨3, 0, 0⟩ ⟨2, 1, 0⟩ ⟨1, 1, 0⟩ = .ret s ∧ s.area = 3 ∧
    V3.norm (areaVec ⟨0, 0, 0⟩ ⟨3, 0, 0⟩ ⟨2, 1, 0⟩) / 2 + V3.norm (areaVec ⟨0, 0, 0⟩ ⟨2, 1, 0⟩ ⟨1, 1, 0⟩) / 2 = 2 ∧
    s.at (-s.maxX) (-s.maxY) ≠ ⟨0, 0, 0⟩ := by
  have h3 : ∀ c : ℝ, 0 ≤ c → V3.norm ⟨0, 0, c⟩ = c := by
    intro c hc; rw [V3.norm]; simp only [mul_zero, zero_add]; exact Real.sqrt_mul_self hc
  have hne : areaVec ⟨0, 0, 0⟩ ⟨3, 0, 0⟩ ⟨2, 1, 0⟩ ≠ ⟨0, 0, 0⟩ := by simp [areaVec, V3.cross, V3.sub]
  obtain ⟨P, hP, hu, -, -, -, hon⟩ := (P3.through_spec ⟨0, 0, 0⟩ ⟨3, 0, 0⟩ ⟨2, 1, 0⟩).2 hne
  have h4 : P.On ⟨1, 1, 0⟩ := (hon _).mpr ⟨-1 / 3, 1, by norm_num⟩
  have hon4 : P.onPlane ⟨1, 1, 0⟩ geomEps = true :=
    (P3.onPlane_partial hu _ geomEps).mpr ⟨_, h4, by rw [L3.eucl_eq_zero.mpr rfl]; norm_num [geomEps]⟩
  refine ⟨_, by rw [RectSurf.new, hP, Outcome.bind_ret, hon4]; rfl, ?_, ?_, ?_⟩
  · simp only [RectSurf.area, V3.cross, vec, V3.sub]
    norm_num [h3]
  · simp only [areaVec, V3.cross, V3.sub]
    norm_num [h3]
  · intro e
    have hx : unitVec (vec (⟨0, 0, 0⟩ : V3 ℝ) ⟨3, 0, 0⟩) = ⟨1, 0, 0⟩ :=
      (unitVec_scale (c := 3) (by norm_num) (by norm_num) (by norm_num [vec, V3.sub, V3.scale])).1
    have hs : (0 : ℝ) < Real.sqrt 2 := Real.sqrt_pos.mpr (by norm_num)
    have hs2 : Real.sqrt 2 * Real.sqrt 2 = 2 := Real.mul_self_sqrt (by norm_num)
    have hy : unitVec (vec (⟨0, 0, 0⟩ : V3 ℝ) ⟨1, 1, 0⟩) = ⟨1 / Real.sqrt 2, 1 / Real.sqrt 2, 0⟩ := by
      refine (unitVec_scale (c := Real.sqrt 2) hs ?_ ?_).1
      · simp only [div_pow, one_pow, Real.sq_sqrt (by norm_num : (0 : ℝ) ≤ 2)]; norm_num
      · ext <;> simp only [vec, V3.sub, V3.scale] <;> field_simp <;> norm_num
    have hd1 : pdist (⟨0, 0, 0⟩ : V3 ℝ) ⟨3, 0, 0⟩ = 3 := by
      rw [pdist]; rw [show ((3 : ℝ) - 0) ^ 2 + (0 - 0) ^ 2 + (0 - 0) ^ 2 = 3 ^ 2 by norm_num]; exact Real.sqrt_sq (by norm_num)
    have hd2 : pdist (⟨0, 0, 0⟩ : V3 ℝ) ⟨1, 1, 0⟩ = Real.sqrt 2 := by
      rw [pdist]; norm_num
    simp only [RectSurf.at, V3.add, V3.scale, hx, hy, hd1, hd2, V3.mk.injEq] at e
    have e1 := e.1
    have : 1 / Real.sqrt 2 * -(Real.sqrt 2 / 2) = -1 / 2 := by field_simp
    rw [this] at e1; norm_num at e1

/-! ## The hypotheses can be met -/

/-- A proper triangle in space, and a parallelogram that is a rectangle, not parallel to the axes. -/
example : areaVec ⟨1, 2, 3⟩ ⟨4, 2, 3⟩ ⟨1, 6, 5⟩ ≠ ⟨0, 0, 0⟩ ∧ IsPar ⟨0, 0, 0⟩ ⟨1, 1, 0⟩ ⟨0, 2, 1⟩ ⟨-1, 1, 1⟩ ∧ corner ⟨0, 0, 0⟩ ⟨1, 1, 0⟩ ⟨-1, 1, 1⟩ = 0 ∧
    areaVec ⟨0, 0, 0⟩ ⟨1, 1, 0⟩ ⟨-1, 1, 1⟩ ≠ ⟨0, 0, 0⟩ := by
  norm_num [areaVec, V3.cross, V3.sub, IsPar, corner, V3.add]

/-- A triangle whose plane exists, with a point of the plane outside the triangle. -/
example : ∃ P, (Tri.mk ⟨0, 0, 0⟩ ⟨1, 0, 0⟩ ⟨0, 1, 0⟩).plane = .ret P ∧ P.On ⟨1, 1, 0⟩ ∧ ¬InTri ⟨0, 0, 0⟩ ⟨1, 0, 0⟩ ⟨0, 1, 0⟩ ⟨1, 1, 0⟩ := by
  obtain ⟨P, hP, -, -, -, -, hon⟩ := (P3.through_spec ⟨0, 0, 0⟩ ⟨1, 0, 0⟩ ⟨0, 1, 0⟩).2 (by simp [V3.cross, V3.sub])
  refine ⟨P, hP, (hon _).mpr ⟨1, 1, by norm_num⟩, ?_⟩
  rintro ⟨α, β, γ, h1, h2, h3, hs, e⟩
  simp only [mix, V3.mk.injEq] at e
  linarith [e.1, e.2.1]

/-- Collinear vertices that do not all coincide. -/
example : areaVec ⟨0, 0, 0⟩ ⟨1, 1, 1⟩ ⟨3, 3, 3⟩ = ⟨0, 0, 0⟩ ∧ ¬((⟨0, 0, 0⟩ : V3 ℝ) = ⟨1, 1, 1⟩ ∧ (⟨1, 1, 1⟩ : V3 ℝ) = ⟨3, 3, 3⟩) := by
  constructor
  · norm_num [areaVec, V3.cross, V3.sub]
  · norm_num

/-- A right triangle in space, with the right angle at its first vertex, that is not isosceles. -/
example : (Tri.mk ⟨0, 0, 0⟩ ⟨3, 0, 0⟩ ⟨0, 0, 4⟩).isRight geomEps = true := by
  rw [isRight_spec]; right; left; norm_num [corner, geomEps]

end Verif.Geom.S3
