import Verif.CompGeo.RayTriangle
import Verif.CompGeo.PolygonProps
import Mathlib.Tactic

/-!
# C116: the intersection of a ray with a triangle
-/

set_option autoImplicit false

namespace Verif.CompGeo.Ray

open Verif.Geom

/-! ## Specification -/

/-- The point with parameter `t` of the ray is the point of the triangle with weights `1 - u - v`, `u` and `v`. -/
def Meet (org dir v0 v1 v2 : V3 ℝ) (t u v : ℝ) : Prop :=
  org.x + t * dir.x = (1 - u - v) * v0.x + u * v1.x + v * v2.x ∧
  org.y + t * dir.y = (1 - u - v) * v0.y + u * v1.y + v * v2.y ∧
  org.z + t * dir.z = (1 - u - v) * v0.z + u * v1.z + v * v2.z

/-- The ray (`t ≥ 0`) meets the triangle, border included (weights `≥ 0`). -/
def Meets (org dir v0 v1 v2 : V3 ℝ) : Prop :=
  ∃ t u v, 0 ≤ t ∧ 0 ≤ u ∧ 0 ≤ v ∧ 0 ≤ 1 - u - v ∧ Meet org dir v0 v1 v2 t u v

/-- The volume of the parallelepiped of the two edges at `v0` and the direction reversed: how clearly the ray crosses the plane of the triangle. -/
def volume (dir v0 v1 v2 : V3 ℝ) : ℝ :=
  (v1.x - v0.x) * (dir.y * (v2.z - v0.z) - dir.z * (v2.y - v0.y)) +
  (v1.y - v0.y) * (dir.z * (v2.x - v0.x) - dir.x * (v2.z - v0.z)) +
  (v1.z - v0.z) * (dir.x * (v2.y - v0.y) - dir.y * (v2.x - v0.x))

theorem det_eq (dir v0 v1 v2 : V3 ℝ) : det dir v0 v1 v2 = volume dir v0 v1 v2 := rfl

/-! ## Cramer's rule -/

noncomputable def solU (org dir v0 v1 v2 : V3 ℝ) : ℝ := V3.dot (V3.sub org v0) (V3.cross dir (V3.sub v2 v0)) * (1 / det dir v0 v1 v2)
noncomputable def solV (org dir v0 v1 v2 : V3 ℝ) : ℝ := V3.dot dir (V3.cross (V3.sub org v0) (V3.sub v1 v0)) * (1 / det dir v0 v1 v2)
noncomputable def solT (org dir v0 v1 v2 : V3 ℝ) : ℝ := V3.dot (V3.sub v2 v0) (V3.cross (V3.sub org v0) (V3.sub v1 v0)) * (1 / det dir v0 v1 v2)

theorem meet_iff {org dir v0 v1 v2 : V3 ℝ} (h : det dir v0 v1 v2 ≠ 0) (t u v : ℝ) :
    Meet org dir v0 v1 v2 t u v ↔ t = solT org dir v0 v1 v2 ∧ u = solU org dir v0 v1 v2 ∧ v = solV org dir v0 v1 v2 := by
  constructor
  · rintro ⟨h1, h2, h3⟩
    rw [solT, solU, solV]
    rw [mul_one_div, eq_div_iff h, mul_one_div, eq_div_iff h, mul_one_div, eq_div_iff h]
    simp only [det, V3.dot, V3.sub, V3.cross]
    obtain ⟨ox, oy, oz⟩ := org
    dsimp only at h1 h2 h3 ⊢
    have e1 : ox = (1 - u - v) * v0.x + u * v1.x + v * v2.x - t * dir.x := by linarith
    have e2 : oy = (1 - u - v) * v0.y + u * v1.y + v * v2.y - t * dir.y := by linarith
    have e3 : oz = (1 - u - v) * v0.z + u * v1.z + v * v2.z - t * dir.z := by linarith
    rw [e1, e2, e3]
    refine ⟨by ring, by ring, by ring⟩
  · rintro ⟨rfl, rfl, rfl⟩
    rw [Meet, solT, solU, solV]
    refine ⟨?_, ?_, ?_⟩ <;>
    · field_simp
      simp only [det, V3.dot, V3.sub, V3.cross]
      ring

/-! ## The property -/

open Classical in
theorem rayTriangle_eq {org dir v0 v1 v2 : V3 ℝ} {cull : Bool} (h : ¬(if cull = true then det dir v0 v1 v2 < geomEps else |det dir v0 v1 v2| < geomEps)) :
    rayTriangle org dir v0 v1 v2 cull = .ret
      (if 0 ≤ solU org dir v0 v1 v2 ∧ 0 ≤ solV org dir v0 v1 v2 ∧ 0 ≤ 1 - solU org dir v0 v1 v2 - solV org dir v0 v1 v2 ∧ 0 ≤ solT org dir v0 v1 v2
       then ⟨true, solT org dir v0 v1 v2, solU org dir v0 v1 v2, solV org dir v0 v1 v2, V3.add org (V3.scale dir (solT org dir v0 v1 v2))⟩
       else miss) := by
  have hd : det dir v0 v1 v2 ≠ 0 := by
    intro h0
    apply h
    rw [h0]
    simp [geomEps]
  rw [rayTriangle, if_neg h, Poly.fdiv_of_ne hd, Outcome.bind_ret, afterDet, afterU, afterV]
  rw [← solU, ← solV, ← solT]
  generalize solU org dir v0 v1 v2 = u
  generalize solV org dir v0 v1 v2 = v
  generalize solT org dir v0 v1 v2 = t
  congr 1
  by_cases h1 : 0 ≤ u ∧ 0 ≤ v ∧ 0 ≤ 1 - u - v ∧ 0 ≤ t
  · obtain ⟨a1, a2, a3, a4⟩ := h1
    have b1 : ¬(u < 0 ∨ 1 < u) := by push Not; constructor <;> linarith
    have b2 : ¬(v < 0 ∨ 1 < u + v) := by push Not; constructor <;> linarith
    rw [if_neg b1, if_neg b2, if_neg (not_lt.2 a4), if_pos ⟨a1, a2, a3, a4⟩]
  · rw [if_neg h1]
    by_cases h2 : u < 0 ∨ 1 < u
    · rw [if_pos h2]
    rw [if_neg h2]
    by_cases h3 : v < 0 ∨ 1 < u + v
    · rw [if_pos h3]
    rw [if_neg h3]
    push Not at h2 h3
    rw [if_pos]
    by_contra hc
    exact h1 ⟨h2.1, h3.1, by linarith [h3.2], by linarith⟩

/-- What a hit returned says: the ray's point at the parameter is the triangle's point at the barycentric coordinates, and no other parameter or
coordinates do. -/
def Describes (org dir v0 v1 v2 : V3 ℝ) (r : Hit) : Prop :=
  0 ≤ r.t ∧ 0 ≤ r.u ∧ 0 ≤ r.v ∧ 0 ≤ r.w ∧ Meet org dir v0 v1 v2 r.t r.u r.v ∧
  (∀ t u v, Meet org dir v0 v1 v2 t u v → t = r.t ∧ u = r.u ∧ v = r.v) ∧
  r.point = ⟨org.x + r.t * dir.x, org.y + r.t * dir.y, org.z + r.t * dir.z⟩

theorem describe {org dir v0 v1 v2 : V3 ℝ} {cull : Bool} (h : ¬(if cull = true then det dir v0 v1 v2 < geomEps else |det dir v0 v1 v2| < geomEps)) :
    ∃ r, rayTriangle org dir v0 v1 v2 cull = .ret r ∧ (r.hit = true ↔ Meets org dir v0 v1 v2) ∧ (r.hit = true → Describes org dir v0 v1 v2 r) := by
  classical
  have hd : det dir v0 v1 v2 ≠ 0 := by
    intro h0
    apply h
    rw [h0]
    simp [geomEps]
  refine ⟨_, rayTriangle_eq h, ?_, ?_⟩
  · split_ifs with h1
    · refine ⟨fun _ => ?_, fun _ => rfl⟩
      exact ⟨_, _, _, h1.2.2.2, h1.1, h1.2.1, h1.2.2.1, (meet_iff hd _ _ _).2 ⟨rfl, rfl, rfl⟩⟩
    · refine ⟨fun h => by simp [miss] at h, ?_⟩
      rintro ⟨t, u, v, ht, hu, hv, hw, hm⟩
      obtain ⟨rfl, rfl, rfl⟩ := (meet_iff hd _ _ _).1 hm
      exact absurd ⟨hu, hv, hw, ht⟩ h1
  · split_ifs with h1
    · intro _
      refine ⟨h1.2.2.2, h1.1, h1.2.1, h1.2.2.1, (meet_iff hd _ _ _).2 ⟨rfl, rfl, rfl⟩, fun t u v hm => (meet_iff hd _ _ _).1 hm, ?_⟩
      simp only [V3.add, V3.scale]
      congr 1 <;> ring
    · intro h
      simp [miss] at h

/-- **C116.**  Without culling, a ray and a triangle whose volume is at least `1e-10` in size: there is a hit exactly if the ray meets the
triangle, and it is the place where they meet. -/
theorem rayTriangle_spec (org dir v0 v1 v2 : V3 ℝ) (h : 1 / 10 ^ 10 ≤ |volume dir v0 v1 v2|) :
    ∃ r, rayTriangle org dir v0 v1 v2 false = .ret r ∧ (r.hit = true ↔ Meets org dir v0 v1 v2) ∧ (r.hit = true → Describes org dir v0 v1 v2 r) := by
  refine describe ?_
  rw [det_eq, geomEps]
  simpa using h

/-- **C116.**  With culling, a triangle whose front (from where the vertices go round counterclockwise) faces the origin of the ray. -/
theorem rayTriangle_cull (org dir v0 v1 v2 : V3 ℝ) (h : 1 / 10 ^ 10 ≤ volume dir v0 v1 v2) :
    ∃ r, rayTriangle org dir v0 v1 v2 true = .ret r ∧ (r.hit = true ↔ Meets org dir v0 v1 v2) ∧ (r.hit = true → Describes org dir v0 v1 v2 r) := by
  refine describe ?_
  rw [det_eq, geomEps]
  simpa using h

/-- **C116.**  With culling, triangles that show their back or are seen edge on are never hit; without culling, those seen (nearly) edge on. -/
theorem rayTriangle_flat (org dir v0 v1 v2 : V3 ℝ) :
    (volume dir v0 v1 v2 < 1 / 10 ^ 10 → ∃ r, rayTriangle org dir v0 v1 v2 true = .ret r ∧ r.hit = false) ∧
    (|volume dir v0 v1 v2| < 1 / 10 ^ 10 → ∃ r, rayTriangle org dir v0 v1 v2 false = .ret r ∧ r.hit = false) := by
  constructor
  · intro h
    refine ⟨miss, ?_, rfl⟩
    rw [rayTriangle, if_pos]
    rw [det_eq, geomEps]; simpa using h
  · intro h
    refine ⟨miss, ?_, rfl⟩
    rw [rayTriangle, if_pos]
    rw [det_eq, geomEps]; simpa using h

/-- The sign of the volume says which side of the triangle the ray comes from: it is minus the scalar product of the direction with the normal
`(v1 - v0) × (v2 - v0)`. -/
theorem volume_normal (dir v0 v1 v2 : V3 ℝ) : volume dir v0 v1 v2 = -V3.dot dir (V3.cross (V3.sub v1 v0) (V3.sub v2 v0)) := by
  simp only [volume, V3.dot, V3.cross, V3.sub]; ring

/-- **C116.**  Every hit is right, whatever the volume: nothing is reported that is not there. -/
theorem rayTriangle_sound (org dir v0 v1 v2 : V3 ℝ) (cull : Bool) (r : Hit) (h : rayTriangle org dir v0 v1 v2 cull = .ret r) (hr : r.hit = true) :
    Meets org dir v0 v1 v2 ∧ Describes org dir v0 v1 v2 r := by
  classical
  by_cases hc : (if cull = true then det dir v0 v1 v2 < geomEps else |det dir v0 v1 v2| < geomEps)
  · rw [rayTriangle, if_pos hc] at h
    cases h
    simp [miss] at hr
  · obtain ⟨r', e, h1, h2⟩ := describe (org := org) hc
    rw [e] at h
    cases h
    exact ⟨h1.1 hr, h2 hr⟩

/-- **C116.**  There is always a result. -/
theorem rayTriangle_total (org dir v0 v1 v2 : V3 ℝ) (cull : Bool) : ∃ r, rayTriangle org dir v0 v1 v2 cull = .ret r := by
  classical
  by_cases hc : (if cull = true then det dir v0 v1 v2 < geomEps else |det dir v0 v1 v2| < geomEps)
  · exact ⟨miss, by rw [rayTriangle, if_pos hc]⟩
  · obtain ⟨r', e, _⟩ := describe (org := org) hc
    exact ⟨r', e⟩

/-- A ray that hits the middle of a triangle from above. -/
example : ∃ r, rayTriangle ⟨1/4, 1/4, 5⟩ ⟨0, 0, -1⟩ ⟨0, 0, 0⟩ ⟨1, 0, 0⟩ ⟨0, 1, 0⟩ true = .ret r ∧ r.hit = true ∧ r.t = 5 ∧ r.u = 1/4 ∧ r.v = 1/4 := by
  obtain ⟨r, e, h1, h2⟩ := rayTriangle_cull ⟨1/4, 1/4, 5⟩ ⟨0, 0, -1⟩ ⟨0, 0, 0⟩ ⟨1, 0, 0⟩ ⟨0, 1, 0⟩ (by norm_num [volume])
  have hm : Meet ⟨1/4, 1/4, 5⟩ ⟨0, 0, -1⟩ ⟨0, 0, 0⟩ ⟨1, 0, 0⟩ ⟨0, 1, 0⟩ 5 (1/4) (1/4) := by norm_num [Meet]
  have hh := h1.2 ⟨5, 1/4, 1/4, by norm_num, by norm_num, by norm_num, by norm_num, hm⟩
  obtain ⟨a, b, c⟩ := (h2 hh).2.2.2.2.2.1 _ _ _ hm
  exact ⟨r, e, hh, a.symm, b.symm, c.symm⟩

/-- The same ray from below shows the back. -/
example : ∃ r, rayTriangle ⟨1/4, 1/4, -5⟩ ⟨0, 0, 1⟩ ⟨0, 0, 0⟩ ⟨1, 0, 0⟩ ⟨0, 1, 0⟩ true = .ret r ∧ r.hit = false :=
  (rayTriangle_flat _ _ _ _ _).1 (by norm_num [volume])

/-- **C116, the disagreement.**  The bound on the volume is absolute: the ray that goes straight through the middle of a triangle with sides of
length `1e-6` misses it, and so does a direction vector of length `1e-11` (`rayDir` "not necessarily unit") a triangle with sides of length 1. -/
theorem rayTriangle_small_wrong :
    (Meets ⟨1/10^7, 1/10^7, 1⟩ ⟨0, 0, -1⟩ ⟨0, 0, 0⟩ ⟨1/10^6, 0, 0⟩ ⟨0, 1/10^6, 0⟩ ∧
      ∃ r, rayTriangle ⟨1/10^7, 1/10^7, 1⟩ ⟨0, 0, -1⟩ ⟨0, 0, 0⟩ ⟨1/10^6, 0, 0⟩ ⟨0, 1/10^6, 0⟩ false = .ret r ∧ r.hit = false) ∧
    (Meets ⟨1/4, 1/4, 5⟩ ⟨0, 0, -(1/10^11)⟩ ⟨0, 0, 0⟩ ⟨1, 0, 0⟩ ⟨0, 1, 0⟩ ∧
      ∃ r, rayTriangle ⟨1/4, 1/4, 5⟩ ⟨0, 0, -(1/10^11)⟩ ⟨0, 0, 0⟩ ⟨1, 0, 0⟩ ⟨0, 1, 0⟩ false = .ret r ∧ r.hit = false) := by
  refine ⟨⟨⟨1, 1/10, 1/10, by norm_num, by norm_num, by norm_num, by norm_num, by norm_num [Meet]⟩,
    (rayTriangle_flat _ _ _ _ _).2 (by norm_num [volume, abs_of_pos])⟩,
    ⟨⟨5 * 10^11, 1/4, 1/4, by norm_num, by norm_num, by norm_num, by norm_num, by norm_num [Meet]⟩,
    (rayTriangle_flat _ _ _ _ _).2 (by norm_num [volume, abs_of_pos])⟩⟩

end Verif.CompGeo.Ray
