import Verif.Geom.Plane3D
import Verif.Geom.Lines3DProps

/-!
# C119: planes
-/

set_option autoImplicit false

namespace Verif.Geom.P3

open Verif.CompGeo (geomEps)
open L3 (Line vec unitVec isZero eucl go eucl_nonneg eucl_sq eucl_eq_zero eucl_comm norm_sq norm_nonneg norm_pos norm_eq_zero unitVec_of unitVec_unit Made)

/-! ## Specification -/

/-- The points of the plane. -/
def Plane.On (P : Plane) (q : V3 ℝ) : Prop := P.A * q.x + P.B * q.y + P.C * q.z + P.D = 0

/-- The plane has a normal (is not the equation `D = 0`). -/
def Plane.Proper (P : Plane) : Prop := P.normal ≠ ⟨0, 0, 0⟩

/-- The normal has length one. -/
def Plane.Unit (P : Plane) : Prop := P.A ^ 2 + P.B ^ 2 + P.C ^ 2 = 1

/-! ## Constructors -/

theorem zero_iff (v : V3 ℝ) : isZero v ↔ v = ⟨0, 0, 0⟩ := by rw [isZero, V3.ext_iff]

/-- The constructor from a point and a normal: a null normal is refused; otherwise the points of the plane are those `q` with `(q - a) · n = 0`, and the
normal stored has length one. -/
theorem new_spec (a n : V3 ℝ) :
    (n = ⟨0, 0, 0⟩ → Plane.new a n = .exn (.mml "GeometryError")) ∧
    (n ≠ ⟨0, 0, 0⟩ → ∃ P, Plane.new a n = .ret P ∧ P.Unit ∧ (∃ c, 0 < c ∧ n = V3.scale P.normal c) ∧
      ∀ q, P.On q ↔ (q.x - a.x) * n.x + (q.y - a.y) * n.y + (q.z - a.z) * n.z = 0) := by
  constructor
  · intro h; rw [Plane.new, if_pos ((zero_iff n).mpr h)]
  · intro h
    have hn : ¬(n.x = 0 ∧ n.y = 0 ∧ n.z = 0) := fun e => h ((zero_iff n).mp e)
    have hp := norm_pos hn
    refine ⟨_, by rw [Plane.new, if_neg (fun e => h ((zero_iff n).mp e))], by rw [Plane.Unit]; exact unitVec_unit hn, ⟨V3.norm n, hp, ?_⟩, fun q => ?_⟩
    · rw [unitVec_of hn]
      simp only [V3.scale, V3.ext_iff, Plane.normal]
      refine ⟨?_, ?_, ?_⟩ <;> field_simp
    · rw [unitVec_of hn]
      simp only [Plane.On]
      have : n.x / V3.norm n * q.x + n.y / V3.norm n * q.y + n.z / V3.norm n * q.z +
          -(a.x * (n.x / V3.norm n) + a.y * (n.y / V3.norm n) + a.z * (n.z / V3.norm n)) =
          ((q.x - a.x) * n.x + (q.y - a.y) * n.y + (q.z - a.z) * n.z) / V3.norm n := by field_simp; ring
      rw [this, div_eq_zero_iff]
      constructor
      · rintro (h | h)
        · exact h
        · exact absurd h hp.ne'
      · exact .inl

/-- A vector in terms of two others and their vector product. -/
theorem expand (ux uy uz wx wy wz vx vy vz : ℝ) :
    (((uy * wz - uz * wy) ^ 2 + (uz * wx - ux * wz) ^ 2 + (ux * wy - uy * wx) ^ 2) * vx =
      ((vy * wz - vz * wy) * (uy * wz - uz * wy) + (vz * wx - vx * wz) * (uz * wx - ux * wz) + (vx * wy - vy * wx) * (ux * wy - uy * wx)) * ux +
      ((uy * vz - uz * vy) * (uy * wz - uz * wy) + (uz * vx - ux * vz) * (uz * wx - ux * wz) + (ux * vy - uy * vx) * (ux * wy - uy * wx)) * wx +
      (uy * wz - uz * wy) * (vx * (uy * wz - uz * wy) + vy * (uz * wx - ux * wz) + vz * (ux * wy - uy * wx))) ∧
    (((uy * wz - uz * wy) ^ 2 + (uz * wx - ux * wz) ^ 2 + (ux * wy - uy * wx) ^ 2) * vy =
      ((vy * wz - vz * wy) * (uy * wz - uz * wy) + (vz * wx - vx * wz) * (uz * wx - ux * wz) + (vx * wy - vy * wx) * (ux * wy - uy * wx)) * uy +
      ((uy * vz - uz * vy) * (uy * wz - uz * wy) + (uz * vx - ux * vz) * (uz * wx - ux * wz) + (ux * vy - uy * vx) * (ux * wy - uy * wx)) * wy +
      (uz * wx - ux * wz) * (vx * (uy * wz - uz * wy) + vy * (uz * wx - ux * wz) + vz * (ux * wy - uy * wx))) ∧
    (((uy * wz - uz * wy) ^ 2 + (uz * wx - ux * wz) ^ 2 + (ux * wy - uy * wx) ^ 2) * vz =
      ((vy * wz - vz * wy) * (uy * wz - uz * wy) + (vz * wx - vx * wz) * (uz * wx - ux * wz) + (vx * wy - vy * wx) * (ux * wy - uy * wx)) * uz +
      ((uy * vz - uz * vy) * (uy * wz - uz * wy) + (uz * vx - ux * vz) * (uz * wx - ux * wz) + (ux * vy - uy * vx) * (ux * wy - uy * wx)) * wz +
      (ux * wy - uy * wx) * (vx * (uy * wz - uz * wy) + vy * (uz * wx - ux * wz) + vz * (ux * wy - uy * wx))) := by
  refine ⟨by ring, by ring, by ring⟩

/-- The constructor from three points: points on a line are refused; otherwise the plane consists exactly of the points `a + s (b - a) + t (c - a)`, so it goes
through all three. -/
theorem through_spec (a b c : V3 ℝ) :
    (V3.cross (V3.sub b a) (V3.sub c a) = ⟨0, 0, 0⟩ → Plane.through a b c = .exn (.mml "GeometryError")) ∧
    (V3.cross (V3.sub b a) (V3.sub c a) ≠ ⟨0, 0, 0⟩ → ∃ P, Plane.through a b c = .ret P ∧ P.Unit ∧ P.On a ∧ P.On b ∧ P.On c ∧
      ∀ q, P.On q ↔ ∃ s t : ℝ, q = ⟨a.x + s * (b.x - a.x) + t * (c.x - a.x), a.y + s * (b.y - a.y) + t * (c.y - a.y),
        a.z + s * (b.z - a.z) + t * (c.z - a.z)⟩) := by
  constructor
  · intro h; exact (new_spec a _).1 h
  · intro h
    obtain ⟨P, h1, h2, _, h4⟩ := (new_spec a _).2 h
    refine ⟨P, h1, h2, (h4 a).mpr (by ring), (h4 b).mpr (by simp only [V3.cross, V3.sub]; ring), (h4 c).mpr (by simp only [V3.cross, V3.sub]; ring), ?_⟩
    intro q
    rw [h4]
    set n := V3.cross (V3.sub b a) (V3.sub c a) with hn
    have hN : n.x ^ 2 + n.y ^ 2 + n.z ^ 2 ≠ 0 := by
      rw [← norm_sq]
      exact pow_ne_zero _ (norm_pos (fun e => h (V3.ext_iff.mpr e))).ne'
    have e1 : n.x = (b.y - a.y) * (c.z - a.z) - (b.z - a.z) * (c.y - a.y) := rfl
    have e2 : n.y = (b.z - a.z) * (c.x - a.x) - (b.x - a.x) * (c.z - a.z) := rfl
    have e3 : n.z = (b.x - a.x) * (c.y - a.y) - (b.y - a.y) * (c.x - a.x) := rfl
    constructor
    · intro hq
      set N := n.x ^ 2 + n.y ^ 2 + n.z ^ 2 with hNd
      set S := V3.dot (V3.cross (V3.sub q a) (V3.sub c a)) n with hS
      set T := V3.dot (V3.cross (V3.sub b a) (V3.sub q a)) n with hT
      refine ⟨S / N, T / N, ?_⟩
      rw [V3.ext_iff]
      have hS' : S = ((q.y - a.y) * (c.z - a.z) - (q.z - a.z) * (c.y - a.y)) * n.x + ((q.z - a.z) * (c.x - a.x) - (q.x - a.x) * (c.z - a.z)) * n.y +
        ((q.x - a.x) * (c.y - a.y) - (q.y - a.y) * (c.x - a.x)) * n.z := rfl
      have hT' : T = ((b.y - a.y) * (q.z - a.z) - (b.z - a.z) * (q.y - a.y)) * n.x + ((b.z - a.z) * (q.x - a.x) - (b.x - a.x) * (q.z - a.z)) * n.y +
        ((b.x - a.x) * (q.y - a.y) - (b.y - a.y) * (q.x - a.x)) * n.z := rfl
      refine ⟨?_, ?_, ?_⟩ <;> dsimp only
      · have : N * (q.x - a.x) = S * (b.x - a.x) + T * (c.x - a.x) := by
          rw [hS', hT', hNd]
          have := expand (b.x - a.x) (b.y - a.y) (b.z - a.z) (c.x - a.x) (c.y - a.y) (c.z - a.z) (q.x - a.x) (q.y - a.y) (q.z - a.z)
          rw [← e1, ← e2, ← e3] at this
          linear_combination this.1 + n.x * hq
        field_simp
        linarith
      · have : N * (q.y - a.y) = S * (b.y - a.y) + T * (c.y - a.y) := by
          rw [hS', hT', hNd]
          have := expand (b.x - a.x) (b.y - a.y) (b.z - a.z) (c.x - a.x) (c.y - a.y) (c.z - a.z) (q.x - a.x) (q.y - a.y) (q.z - a.z)
          rw [← e1, ← e2, ← e3] at this
          linear_combination this.2.1 + n.y * hq
        field_simp
        linarith
      · have : N * (q.z - a.z) = S * (b.z - a.z) + T * (c.z - a.z) := by
          rw [hS', hT', hNd]
          have := expand (b.x - a.x) (b.y - a.y) (b.z - a.z) (c.x - a.x) (c.y - a.y) (c.z - a.z) (q.x - a.x) (q.y - a.y) (q.z - a.z)
          rw [← e1, ← e2, ← e3] at this
          linear_combination this.2.2 + n.z * hq
        field_simp
        linarith
    · rintro ⟨s, t, rfl⟩
      rw [e1, e2, e3]; ring

/-- Hesse's form with cosines of a direction: the normal has length one, and the point of the plane nearest to the origin is `d` times the normal. -/
theorem hesse_spec (alpha beta gamma d : ℝ) (h : Real.cos alpha ^ 2 + Real.cos beta ^ 2 + Real.cos gamma ^ 2 = 1) :
    (Plane.hesse alpha beta gamma d).Unit ∧ (Plane.hesse alpha beta gamma d).On ⟨d * Real.cos alpha, d * Real.cos beta, d * Real.cos gamma⟩ ∧
    ∀ q, (Plane.hesse alpha beta gamma d).On q ↔ q.x * Real.cos alpha + q.y * Real.cos beta + q.z * Real.cos gamma = d := by
  refine ⟨h, ?_, fun q => ?_⟩
  · simp only [Plane.On, Plane.hesse]; linear_combination d * h
  · simp only [Plane.On, Plane.hesse]; constructor <;> intro h <;> linarith

/-- The constructor from intercepts: a zero is refused; otherwise the plane meets each axis exactly there, and `GetCoordAxisSegments` gives them back. -/
theorem intercepts_spec (sx sy sz : ℝ) :
    ((sx = 0 ∨ sy = 0 ∨ sz = 0) → Plane.intercepts sx sy sz = .exn (.mml "GeometryError")) ∧
    (sx ≠ 0 → sy ≠ 0 → sz ≠ 0 → ∃ P, Plane.intercepts sx sy sz = .ret P ∧ P.Proper ∧ P.axisSegs = ((sx : EReal), (sy : EReal), (sz : EReal)) ∧
      (∀ t, P.On ⟨t, 0, 0⟩ ↔ t = sx) ∧ (∀ t, P.On ⟨0, t, 0⟩ ↔ t = sy) ∧ ∀ t, P.On ⟨0, 0, t⟩ ↔ t = sz) := by
  constructor
  · intro h; rw [Plane.intercepts, if_pos h]
  · intro hx hy hz
    have key : ∀ s t : ℝ, s ≠ 0 → (1 / s * t + -1 = 0 ↔ t = s) := by
      intro s t hs
      field_simp
      constructor <;> intro h <;> linarith
    have hn : ¬(sx = 0 ∨ sy = 0 ∨ sz = 0) := by push Not; exact ⟨hx, hy, hz⟩
    refine ⟨_, by rw [Plane.intercepts, if_neg hn], ?_, ?_, ?_, ?_, ?_⟩
    · intro e
      simp only [Plane.normal, V3.mk.injEq] at e
      exact one_div_ne_zero hx e.1
    · simp only [Plane.axisSegs, axisSeg]
      rw [if_pos (one_div_ne_zero hx), if_pos (one_div_ne_zero hy), if_pos (one_div_ne_zero hz)]
      simp
    · intro t; simp only [Plane.On, mul_zero, zero_add, add_zero]; exact key sx t hx
    · intro t; simp only [Plane.On, mul_zero, zero_add, add_zero]; exact key sy t hy
    · intro t; simp only [Plane.On, mul_zero, zero_add, add_zero]; exact key sz t hz

/-! ## Points -/

/-- `GetPointOnPlane` gives a point of the plane. -/
theorem somePoint_spec {P : Plane} (h : P.Proper) : ∃ q, P.somePoint = .ret q ∧ P.On q := by
  rw [Plane.somePoint]
  by_cases ha : P.A ≠ 0
  · rw [if_pos ha]; refine ⟨_, rfl, ?_⟩; simp only [Plane.On]; field_simp; ring
  · rw [if_neg ha]
    push Not at ha
    by_cases hb : P.B ≠ 0
    · rw [if_pos hb]; refine ⟨_, rfl, ?_⟩; simp only [Plane.On]; field_simp; ring
    · rw [if_neg hb]
      push Not at hb
      have hc : P.C ≠ 0 := fun e => h (by rw [Plane.normal, ha, hb, e])
      rw [CompGeo.Poly.fdiv_of_ne hc, Outcome.bind_ret]
      refine ⟨_, rfl, ?_⟩; simp only [Plane.On]; field_simp; ring

/-- `GetCoordAxisSegments`: a number is where the axis meets the plane, and infinity is given exactly if the axis is parallel to the plane. -/
theorem axisSegs_spec (P : Plane) :
    (∀ t : ℝ, P.axisSegs.1 = t → P.On ⟨t, 0, 0⟩) ∧ (∀ t : ℝ, P.axisSegs.2.1 = t → P.On ⟨0, t, 0⟩) ∧ (∀ t : ℝ, P.axisSegs.2.2 = t → P.On ⟨0, 0, t⟩) ∧
    (P.axisSegs.1 = ⊤ ↔ P.A = 0) ∧ (P.axisSegs.2.1 = ⊤ ↔ P.B = 0) ∧ (P.axisSegs.2.2 = ⊤ ↔ P.C = 0) := by
  have key : ∀ a D t : ℝ, axisSeg a D = t → a * t + D = 0 := by
    intro a D t h
    rw [axisSeg] at h
    by_cases ha : a ≠ 0
    · rw [if_pos ha, EReal.coe_eq_coe_iff] at h
      rw [← h]; field_simp; ring
    · rw [if_neg ha] at h
      exact absurd h.symm (EReal.coe_ne_top t)
  have key2 : ∀ a D : ℝ, axisSeg a D = ⊤ ↔ a = 0 := by
    intro a D
    rw [axisSeg]
    by_cases ha : a ≠ 0
    · rw [if_pos ha]; exact ⟨fun h => absurd h (EReal.coe_ne_top _), fun h => absurd h ha⟩
    · rw [if_neg ha]; push Not at ha; simp [ha]
  refine ⟨fun t h => ?_, fun t h => ?_, fun t h => ?_, key2 _ _, key2 _ _, key2 _ _⟩
  · simp only [Plane.On]; linarith [key _ _ _ h]
  · simp only [Plane.On]; linarith [key _ _ _ h]
  · simp only [Plane.On]; linarith [key _ _ _ h]

theorem normal_sq (P : Plane) : V3.norm P.normal ^ 2 = P.A ^ 2 + P.B ^ 2 + P.C ^ 2 := norm_sq _

theorem Plane.Proper.pos {P : Plane} (h : P.Proper) : 0 < V3.norm P.normal :=
  norm_pos (fun e => h (V3.ext_iff.mpr e))

/-- The foot of the perpendicular from `p`. -/
noncomputable def foot (P : Plane) (p : V3 ℝ) : V3 ℝ := V3.sub p (V3.scale P.normal (P.val p / V3.norm P.normal ^ 2))

theorem foot_on {P : Plane} (h : P.Proper) (p : V3 ℝ) : P.On (foot P p) := by
  have hp := h.pos
  have hs := normal_sq P
  have hk : P.val p / V3.norm P.normal ^ 2 * V3.norm P.normal ^ 2 = P.val p := by field_simp
  simp only [Plane.On, foot, V3.sub, V3.scale, Plane.normal]
  simp only [Plane.normal] at hk hs
  rw [hs] at hk
  rw [hs]
  have hv : P.val p = P.A * p.x + P.B * p.y + P.C * p.z + P.D := rfl
  linear_combination -hv - hk

theorem pyth {P : Plane} (h : P.Proper) (p r : V3 ℝ) (hr : P.On r) : eucl p r ^ 2 = (P.val p / V3.norm P.normal) ^ 2 + eucl (foot P p) r ^ 2 := by
  have hp := h.pos
  have hf := foot_on h p
  have hs := normal_sq P
  set k := P.val p / V3.norm P.normal ^ 2 with hk
  have hv : (P.val p / V3.norm P.normal) ^ 2 = k ^ 2 * (P.A ^ 2 + P.B ^ 2 + P.C ^ 2) := by
    rw [← hs, hk]; field_simp
  rw [hv, eucl_sq, eucl_sq]
  simp only [Plane.On, foot, V3.sub, V3.scale, Plane.normal] at hf hr ⊢
  simp only [Plane.normal] at hk
  rw [← hk] at hf ⊢
  linear_combination (2 * k) * hf - (2 * k) * hr

theorem dist_eq {P : Plane} (h : P.Proper) (p : V3 ℝ) : P.dist p = .ret (eucl p (foot P p)) := by
  have hp := h.pos
  have e : Real.sqrt (P.A * P.A + P.B * P.B + P.C * P.C) = V3.norm P.normal := by
    rw [V3.norm]; simp [Plane.normal]
  rw [Plane.dist, e, CompGeo.Poly.fdiv_of_ne hp.ne', Outcome.bind_ret]
  congr 1
  refine (sq_eq_sq₀ (abs_nonneg _) (eucl_nonneg _ _)).mp ?_
  rw [sq_abs, pyth h p _ (foot_on h p), eucl_eq_zero.mpr rfl]; ring

/-- `ProjectionToPlane` is the one point of the plane nearest to `p`, and `DistToPoint` is its distance. -/
theorem dist_spec {P : Plane} (h : P.Proper) (p : V3 ℝ) :
    ∃ d q, P.dist p = .ret d ∧ P.project p = .ret q ∧ P.On q ∧ eucl p q = d ∧ ∀ r, P.On r → d ≤ eucl p r ∧ (eucl p r = d → r = q) := by
  have hp := h.pos
  have hne : V3.norm P.normal * V3.norm P.normal ≠ 0 := mul_ne_zero hp.ne' hp.ne'
  refine ⟨_, foot P p, dist_eq h p, ?_, foot_on h p, rfl, fun r hr => ?_⟩
  · rw [Plane.project, if_neg hne, CompGeo.Poly.fdiv_of_ne hne, Outcome.bind_ret, foot, ← sq]; rfl
  · have h1 := pyth h p r hr
    have h2 := pyth h p _ (foot_on h p)
    rw [eucl_eq_zero.mpr rfl] at h2
    constructor
    · refine (sq_le_sq₀ (eucl_nonneg _ _) (eucl_nonneg _ _)).mp ?_
      rw [h1, h2]; nlinarith [sq_nonneg (eucl (foot P p) r)]
    · intro e
      rw [e, h2] at h1
      have : eucl (foot P p) r = 0 := pow_eq_zero_iff (two_ne_zero) |>.mp (by linarith)
      exact (eucl_eq_zero.mp this).symm

/-- `IsPointOnPlane`, for planes with a normal of length one: the point is nearer than the tolerance to some point of the plane. -/
theorem onPlane_partial {P : Plane} (h : P.Unit) (p : V3 ℝ) (eps : ℝ) : P.onPlane p eps = true ↔ ∃ q, P.On q ∧ eucl p q < eps := by
  have hpr : P.Proper := by
    intro e; simp only [Plane.normal, V3.mk.injEq] at e
    simp only [Plane.Unit, e.1, e.2.1, e.2.2] at h; norm_num at h
  have hn : V3.norm P.normal = 1 := by
    have := normal_sq P; rw [h] at this; nlinarith [norm_nonneg P.normal]
  have he : |P.val p| = eucl p (foot P p) := by
    have h1 := pyth hpr p _ (foot_on hpr p)
    rw [eucl_eq_zero.mpr rfl, hn, div_one] at h1
    refine (sq_eq_sq₀ (abs_nonneg _) (eucl_nonneg _ _)).mp ?_
    rw [sq_abs, h1]; ring
  rw [Plane.onPlane, decide_eq_true_iff, he]
  constructor
  · intro h1; exact ⟨_, foot_on hpr p, h1⟩
  · rintro ⟨q, hq, h1⟩
    obtain ⟨d, q', e1, _, _, _, e4⟩ := dist_spec hpr p
    rw [dist_eq hpr] at e1
    cases e1
    exact lt_of_le_of_lt (e4 q hq).1 h1

/-! ## Lines -/

theorem lineVal (P : Plane) (l : Line) (t : ℝ) : P.val (go l.point l.dir t) = P.val l.point + t * V3.dot l.dir P.normal := by
  simp only [Plane.val, go, V3.dot, Plane.normal]; ring

theorem on_iff (P : Plane) (q : V3 ℝ) : P.On q ↔ P.val q = 0 := Iff.rfl

/-- `IsLineOnPlane` says yes to every line in the plane, and when it says yes the points at parameters 0 and 1 nearly satisfy the equation. -/
theorem lineOn_spec (P : Plane) (l : Line) :
    ((∀ q, l.On q → P.On q) → P.lineOn l = true) ∧ (P.lineOn l = true → |P.val l.point| < geomEps ∧ |P.val (l.at 1)| < geomEps) := by
  have he : (0 : ℝ) < geomEps := by norm_num [geomEps]
  constructor
  · intro h
    have h0 : P.val l.point = 0 := h l.point ⟨0, by simp [go]⟩
    have h1 : P.val (l.at 1) = 0 := h (l.at 1) ⟨1, L3.at_eq l 1⟩
    rw [Plane.lineOn, Plane.onPlane, Plane.onPlane, h0, h1]; simp [he]
  · intro h
    simpa [Plane.lineOn, Plane.onPlane] using h

/-- `IntersectionWithLine`: if the line is inclined to the plane (scalar product with the normal at least the tolerance), the point given is on both and is the
only such point; a line parallel to the plane gets no point. -/
theorem meetLine_spec (P : Plane) (l : Line) {eps : ℝ} (he : 0 < eps) :
    (eps ≤ |V3.dot l.dir P.normal| → ∃ q, P.meetLine l eps = .ret (some q) ∧ ∀ r, (l.On r ∧ P.On r) ↔ r = q) ∧
    (|V3.dot l.dir P.normal| < eps → P.meetLine l eps = .ret none) := by
  constructor
  · intro h
    have h0 : V3.dot l.dir P.normal ≠ 0 := by intro e; rw [e, abs_zero] at h; linarith
    refine ⟨_, by rw [Plane.meetLine, if_neg (not_lt.mpr h), CompGeo.Poly.fdiv_of_ne h0, Outcome.bind_ret, L3.add_scale], fun r => ?_⟩
    have hv : V3.dot P.normal l.point + P.D = P.val l.point := rfl
    rw [hv]
    constructor
    · rintro ⟨⟨t, rfl⟩, h2⟩
      rw [on_iff, lineVal] at h2
      congr 1
      rw [eq_div_iff h0]; linarith
    · rintro rfl
      refine ⟨⟨_, rfl⟩, ?_⟩
      rw [on_iff, lineVal]; field_simp; ring
  · intro h; rw [Plane.meetLine, if_pos h]

theorem angleTo_unit {a b : V3 ℝ} (ha : a.x ^ 2 + a.y ^ 2 + a.z ^ 2 = 1) (hb : b.x ^ 2 + b.y ^ 2 + b.z ^ 2 = 1) :
    angleTo a b = .ret (Real.arccos (V3.dot a b)) ∧ -1 ≤ V3.dot a b ∧ V3.dot a b ≤ 1 := by
  have h1 : V3.norm a = 1 := by have := norm_sq a; rw [ha] at this; nlinarith [norm_nonneg a]
  have h2 : V3.norm b = 1 := by have := norm_sq b; rw [hb] at this; nlinarith [norm_nonneg b]
  have hd : -1 ≤ V3.dot a b ∧ V3.dot a b ≤ 1 := by
    apply abs_le.mp
    apply abs_le_of_sq_le_sq' _ zero_le_one |> abs_le.mpr
    simp only [V3.dot]
    nlinarith [sq_nonneg (a.x * b.y - a.y * b.x), sq_nonneg (a.y * b.z - a.z * b.y), sq_nonneg (a.z * b.x - a.x * b.z),
      show (a.x ^ 2 + a.y ^ 2 + a.z ^ 2) * (b.x ^ 2 + b.y ^ 2 + b.z ^ 2) = 1 by rw [ha, hb]; norm_num]
  refine ⟨?_, hd⟩
  rw [angleTo, h1, h2, if_neg (by norm_num [machEps]), CompGeo.Poly.fdiv_of_ne (by norm_num), Outcome.bind_ret, mul_one, div_one, min_eq_right hd.2,
    max_eq_right hd.1]

/-- `AngleToLine`: an angle between `-π/2` and `π/2` whose sine is the component of the direction of the line along the normal. -/
theorem angleLine_spec {P : Plane} (hP : P.Unit) {l : Line} (hl : Made l) :
    ∃ a, P.angleLine l = .ret a ∧ -(Real.pi / 2) ≤ a ∧ a ≤ Real.pi / 2 ∧ Real.sin a = V3.dot l.dir P.normal := by
  obtain ⟨h, h1, h2⟩ := angleTo_unit hl.unit (b := P.normal) hP
  refine ⟨_, by rw [Plane.angleLine, h, Outcome.bind_ret], ?_, ?_, ?_⟩
  · linarith [Real.arccos_le_pi (V3.dot l.dir P.normal)]
  · linarith [Real.arccos_nonneg (V3.dot l.dir P.normal)]
  · rw [Real.sin_pi_div_two_sub, Real.cos_arccos h1 h2]

/-- `AngleToPlane`: the angle between 0 and `π` whose cosine is the scalar product of the normals. -/
theorem anglePlane_spec {P Q : Plane} (hP : P.Unit) (hQ : Q.Unit) :
    ∃ a, P.anglePlane Q = .ret a ∧ 0 ≤ a ∧ a ≤ Real.pi ∧ Real.cos a = V3.dot P.normal Q.normal := by
  obtain ⟨h, h1, h2⟩ := angleTo_unit (a := P.normal) hP (b := Q.normal) hQ
  exact ⟨_, h, Real.arccos_nonneg _, Real.arccos_le_pi _, Real.cos_arccos h1 h2⟩

/-! ## Two planes -/

theorem Plane.Unit.norm {P : Plane} (h : P.Unit) : V3.norm P.normal = 1 := by
  have := normal_sq P; rw [h] at this; nlinarith [norm_nonneg P.normal]

theorem Plane.Unit.proper {P : Plane} (h : P.Unit) : P.Proper := by
  intro e; have := h.norm; rw [e, V3.norm] at this; norm_num at this

theorem parallel_eq {P Q : Plane} (hP : P.Unit) (hQ : Q.Unit) :
    P.parallel Q = .ret (decide (|P.A - Q.A| < geomEps ∧ |P.B - Q.B| < geomEps ∧ |P.C - Q.C| < geomEps)) := by
  rw [Plane.parallel, parallelTo, hP.norm, hQ.norm, if_neg (by norm_num)]
  simp only [Plane.normal, div_one]

/-- `IsPerpendicularToPlane`: the scalar product of the normals is below the tolerance; in particular perpendicular planes are recognised. -/
theorem perpendicular_spec (P Q : Plane) (eps : ℝ) :
    P.perpendicular Q eps = true ↔ |P.A * Q.A + P.B * Q.B + P.C * Q.C| < eps := by
  rw [Plane.perpendicular, decide_eq_true_iff]; rfl

/-- Planes with the same normal are parallel, and `DistToPlane` is the least distance of points of the two. -/
theorem distPlane_partial {P Q : Plane} (hP : P.Unit) (h : P.normal = Q.normal) :
    P.parallel Q = .ret true ∧ ∃ d, P.distPlane Q = .ret d ∧ (∃ q1 q2, P.On q1 ∧ Q.On q2 ∧ eucl q1 q2 = d) ∧
      ∀ q1 q2, P.On q1 → Q.On q2 → d ≤ eucl q1 q2 := by
  have he : (0 : ℝ) < geomEps := by norm_num [geomEps]
  simp only [Plane.normal, V3.mk.injEq] at h
  obtain ⟨h1, h2, h3⟩ := h
  have hQ : Q.Unit := by rw [Plane.Unit, ← h1, ← h2, ← h3]; exact hP
  have hpar : P.parallel Q = .ret true := by
    rw [parallel_eq hP hQ, h1, h2, h3]; simp [he]
  obtain ⟨q, e1, e2⟩ := somePoint_spec hQ.proper
  refine ⟨hpar, ?_⟩
  have hd : P.distPlane Q = .ret (eucl q (foot P q)) := by
    rw [Plane.distPlane, hpar, Outcome.bind_ret, if_pos rfl, e1, Outcome.bind_ret, dist_eq hP.proper]
  refine ⟨_, hd, ⟨foot P q, q, foot_on hP.proper q, e2, eucl_comm _ _⟩, fun q1 q2 a1 a2 => ?_⟩
  have k1 := pyth hP.proper q2 q1 a1
  have k2 := pyth hP.proper q _ (foot_on hP.proper q)
  rw [eucl_eq_zero.mpr rfl] at k2
  have hv : P.val q2 = P.val q := by
    simp only [Plane.On] at a2 e2
    simp only [Plane.val, h1, h2, h3]; linarith
  refine (sq_le_sq₀ (eucl_nonneg _ _) (eucl_nonneg _ _)).mp ?_
  rw [eucl_comm q1 q2, k1, k2, hv]
  nlinarith [sq_nonneg (eucl (foot P q2) q1)]

/-- Planes whose normals differ in some component by the tolerance or more get the distance 0. -/
theorem distPlane_other {P Q : Plane} (hP : P.Unit) (hQ : Q.Unit) (h : geomEps ≤ |P.A - Q.A| ∨ geomEps ≤ |P.B - Q.B| ∨ geomEps ≤ |P.C - Q.C|) :
    P.parallel Q = .ret false ∧ P.distPlane Q = .ret 0 := by
  have hpar : P.parallel Q = .ret false := by
    rw [parallel_eq hP hQ]
    congr 1
    rw [decide_eq_false_iff_not]
    rintro ⟨a, b, c⟩
    rcases h with h | h | h <;> linarith
  refine ⟨hpar, ?_⟩
  rw [Plane.distPlane, hpar, Outcome.bind_ret, if_neg (by simp)]

/-- For planes with opposite normals, which are parallel, `IsParallelToPlane` says no and `DistToPlane` gives 0, always. -/
theorem distPlane_opposite {P Q : Plane} (hP : P.Unit) (h : P.normal = V3.neg Q.normal) :
    P.parallel Q = .ret false ∧ P.distPlane Q = .ret 0 := by
  simp only [Plane.normal, V3.neg, V3.mk.injEq] at h
  obtain ⟨h1, h2, h3⟩ := h
  have hQ : Q.Unit := by rw [Plane.Unit] at hP ⊢; rw [h1, h2, h3] at hP; nlinarith
  apply distPlane_other hP hQ
  by_contra hc
  push Not at hc
  obtain ⟨a, b, c⟩ := hc
  have hg : geomEps = 1 / 10 ^ 10 := rfl
  rw [Plane.Unit] at hP
  have e1 : P.A - Q.A = 2 * P.A := by linarith
  have e2 : P.B - Q.B = 2 * P.B := by linarith
  have e3 : P.C - Q.C = 2 * P.C := by linarith
  rw [e1, abs_lt] at a
  rw [e2, abs_lt] at b
  rw [e3, abs_lt] at c
  rw [hg] at a b c
  norm_num at a b c
  nlinarith

/-- The direction of `IntersectionWithPlane` is right and the planes nearly parallel are refused; but the line returned satisfies both equations with the sign of
the constant changed, that is, lies in the planes reflected in the origin. -/
theorem meetPlane_spec {P Q : Plane} (h : geomEps ≤ V3.norm (V3.cross P.normal Q.normal)) :
    ∃ l, P.meetPlane Q = .ret (some l) ∧ Made l ∧ V3.dot l.dir P.normal = 0 ∧ V3.dot l.dir Q.normal = 0 ∧
      ∀ q, l.On q ↔ (P.A * q.x + P.B * q.y + P.C * q.z = P.D ∧ Q.A * q.x + Q.B * q.y + Q.C * q.z = Q.D) := by
  have he : (0 : ℝ) < geomEps := by norm_num [geomEps]
  set n := V3.cross P.normal Q.normal with hn
  have hp : 0 < V3.norm n := by linarith
  have hnz : ¬(n.x = 0 ∧ n.y = 0 ∧ n.z = 0) := fun e => hp.ne' (norm_eq_zero.mpr e)
  have hu0 : unitVec n ≠ ⟨0, 0, 0⟩ := by
    intro e; have := unitVec_unit hnz; rw [e] at this; norm_num at this
  have hN : V3.norm n ^ 2 ≠ 0 := pow_ne_zero _ hp.ne'
  have hN' := norm_sq n
  set w := V3.cross (V3.sub (V3.scale P.normal (-Q.D)) (V3.scale Q.normal (-P.D))) n with hw
  obtain ⟨l, l1, l2, l3, ⟨c, hc, l4⟩, l5⟩ := (L3.new_spec ⟨w.x / V3.norm n ^ 2, w.y / V3.norm n ^ 2, w.z / V3.norm n ^ 2⟩ (unitVec n)).2 hu0
  have e1 : n.x = P.B * Q.C - P.C * Q.B := rfl
  have e2 : n.y = P.C * Q.A - P.A * Q.C := rfl
  have e3 : n.z = P.A * Q.B - P.B * Q.A := rfl
  have w1 : P.A * w.x + P.B * w.y + P.C * w.z = P.D * V3.norm n ^ 2 := by
    rw [hN', hw]; simp only [V3.cross, V3.sub, V3.scale, Plane.normal]; rw [e1, e2, e3]; ring
  have w2 : Q.A * w.x + Q.B * w.y + Q.C * w.z = Q.D * V3.norm n ^ 2 := by
    rw [hN', hw]; simp only [V3.cross, V3.sub, V3.scale, Plane.normal]; rw [e1, e2, e3]; ring
  have dn : ∀ v : V3 ℝ, V3.dot n v = 0 → V3.dot l.dir v = 0 := by
    intro v hv
    rw [unitVec_of hnz] at l4
    simp only [V3.scale, V3.mk.injEq] at l4
    obtain ⟨x1, x2, x3⟩ := l4
    rw [div_eq_iff hp.ne'] at x1 x2 x3
    have : V3.dot l.dir v * (c * V3.norm n) = 0 := by
      rw [← hv]; simp only [V3.dot]; rw [x1, x2, x3]; ring
    exact (mul_eq_zero.mp this).resolve_right (mul_pos hc hp).ne'
  refine ⟨l, ?_, .inl ⟨_, _, l1⟩, dn _ ?_, dn _ ?_, fun q => ?_⟩
  · rw [Plane.meetPlane, if_neg (not_lt.mpr h), Plane.meetPoint, ← hn, ← hw, V3.div, if_neg hN, Outcome.bind_ret, l1, Outcome.bind_ret]
  · rw [hn]; simp only [V3.dot, V3.cross, Plane.normal]; ring
  · rw [hn]; simp only [V3.dot, V3.cross, Plane.normal]; ring
  · rw [l5 q, unitVec_of hnz]
    constructor
    · rintro ⟨t, rfl⟩
      simp only [go]
      constructor
      · have : P.A * (w.x / V3.norm n ^ 2 + t * (n.x / V3.norm n)) + P.B * (w.y / V3.norm n ^ 2 + t * (n.y / V3.norm n)) +
            P.C * (w.z / V3.norm n ^ 2 + t * (n.z / V3.norm n)) = (P.A * w.x + P.B * w.y + P.C * w.z) / V3.norm n ^ 2 +
            t * ((P.A * n.x + P.B * n.y + P.C * n.z) / V3.norm n) := by ring
        rw [this, w1, show P.A * n.x + P.B * n.y + P.C * n.z = 0 by rw [e1, e2, e3]; ring]
        field_simp; ring
      · have : Q.A * (w.x / V3.norm n ^ 2 + t * (n.x / V3.norm n)) + Q.B * (w.y / V3.norm n ^ 2 + t * (n.y / V3.norm n)) +
            Q.C * (w.z / V3.norm n ^ 2 + t * (n.z / V3.norm n)) = (Q.A * w.x + Q.B * w.y + Q.C * w.z) / V3.norm n ^ 2 +
            t * ((Q.A * n.x + Q.B * n.y + Q.C * n.z) / V3.norm n) := by ring
        rw [this, w2, show Q.A * n.x + Q.B * n.y + Q.C * n.z = 0 by rw [e1, e2, e3]; ring]
        field_simp; ring
    · rintro ⟨q1, q2⟩
      -- the vector from the point is orthogonal to both normals, hence a multiple of `n`
      set r : V3 ℝ := ⟨q.x - w.x / V3.norm n ^ 2, q.y - w.y / V3.norm n ^ 2, q.z - w.z / V3.norm n ^ 2⟩ with hr
      have r1 : P.A * r.x + P.B * r.y + P.C * r.z = 0 := by
        have : P.A * r.x + P.B * r.y + P.C * r.z = (P.A * q.x + P.B * q.y + P.C * q.z) - (P.A * w.x + P.B * w.y + P.C * w.z) / V3.norm n ^ 2 := by
          rw [hr]; ring
        rw [this, q1, w1]; field_simp; ring
      have r2 : Q.A * r.x + Q.B * r.y + Q.C * r.z = 0 := by
        have : Q.A * r.x + Q.B * r.y + Q.C * r.z = (Q.A * q.x + Q.B * q.y + Q.C * q.z) - (Q.A * w.x + Q.B * w.y + Q.C * w.z) / V3.norm n ^ 2 := by
          rw [hr]; ring
        rw [this, q2, w2]; field_simp; ring
      refine ⟨V3.dot n r / V3.norm n, ?_⟩
      have ex := expand P.A P.B P.C Q.A Q.B Q.C r.x r.y r.z
      rw [← e1, ← e2, ← e3, ← hN'] at ex
      have s0 : (r.y * Q.C - r.z * Q.B) * n.x + (r.z * Q.A - r.x * Q.C) * n.y + (r.x * Q.B - r.y * Q.A) * n.z = 0 := by
        rw [e1, e2, e3]
        linear_combination (Q.A ^ 2 + Q.B ^ 2 + Q.C ^ 2) * r1 - (P.A * Q.A + P.B * Q.B + P.C * Q.C) * r2
      have t0 : (P.B * r.z - P.C * r.y) * n.x + (P.C * r.x - P.A * r.z) * n.y + (P.A * r.y - P.B * r.x) * n.z = 0 := by
        rw [e1, e2, e3]
        linear_combination (P.A ^ 2 + P.B ^ 2 + P.C ^ 2) * r2 - (P.A * Q.A + P.B * Q.B + P.C * Q.C) * r1
      rw [s0, t0] at ex
      have k1 : V3.norm n ^ 2 * r.x = V3.dot n r * n.x := by rw [V3.dot]; linear_combination ex.1
      have k2 : V3.norm n ^ 2 * r.y = V3.dot n r * n.y := by rw [V3.dot]; linear_combination ex.2.1
      have k3 : V3.norm n ^ 2 * r.z = V3.dot n r * n.z := by rw [V3.dot]; linear_combination ex.2.2
      rw [V3.ext_iff]
      simp only [go]
      refine ⟨?_, ?_, ?_⟩
      · have : q.x = w.x / V3.norm n ^ 2 + r.x := by rw [hr]; ring
        rw [this]; field_simp; linarith
      · have : q.y = w.y / V3.norm n ^ 2 + r.y := by rw [hr]; ring
        rw [this]; field_simp; linarith
      · have : q.z = w.z / V3.norm n ^ 2 + r.z := by rw [hr]; ring
        rw [this]; field_simp; linarith

/-- Planes that are parallel (also with opposite normals) get no line. -/
theorem meetPlane_parallel {P Q : Plane} (h : P.normal = Q.normal ∨ P.normal = V3.neg Q.normal) : P.meetPlane Q = .ret none := by
  have : V3.norm (V3.cross P.normal Q.normal) = 0 := by
    apply norm_eq_zero.mpr
    rcases h with h | h <;> rw [h] <;> simp only [V3.cross, V3.neg] <;> refine ⟨?_, ?_, ?_⟩ <;> ring
  rw [Plane.meetPlane, if_pos (by rw [this]; norm_num [geomEps])]

/-- If both planes go through the origin (and are not nearly parallel), the line is their intersection. -/
theorem meetPlane_partial {P Q : Plane} (h : geomEps ≤ V3.norm (V3.cross P.normal Q.normal)) (hP : P.On ⟨0, 0, 0⟩) (hQ : Q.On ⟨0, 0, 0⟩) :
    ∃ l, P.meetPlane Q = .ret (some l) ∧ ∀ q, l.On q ↔ P.On q ∧ Q.On q := by
  obtain ⟨l, h1, _, _, _, h5⟩ := meetPlane_spec h
  simp only [Plane.On, mul_zero, zero_add] at hP hQ
  refine ⟨l, h1, fun q => ?_⟩
  rw [h5 q, hP, hQ, Plane.On, Plane.On, hP, hQ, add_zero, add_zero]

/-- In all other cases it is not: no point of the line returned is on a plane that misses the origin. -/
theorem meetPlane_wrong {P Q : Plane} (h : geomEps ≤ V3.norm (V3.cross P.normal Q.normal)) :
    ∃ l, P.meetPlane Q = .ret (some l) ∧ (¬P.On ⟨0, 0, 0⟩ → ∀ q, l.On q → ¬P.On q) ∧ (¬Q.On ⟨0, 0, 0⟩ → ∀ q, l.On q → ¬Q.On q) := by
  obtain ⟨l, h1, _, _, _, h5⟩ := meetPlane_spec h
  refine ⟨l, h1, fun hP q hq hc => hP ?_, fun hQ q hq hc => hQ ?_⟩
  · have := ((h5 q).mp hq).1
    simp only [Plane.On, mul_zero, zero_add] at hc ⊢; linarith
  · have := ((h5 q).mp hq).2
    simp only [Plane.On, mul_zero, zero_add] at hc ⊢; linarith

/-! ## Vectors perpendicular to a vector -/

/-- `GetPerpendicularVectors`: nothing for the null vector; for every other vector two vectors of length one, perpendicular to it and to each other. -/
theorem perpVectors_spec (v : V3 ℝ) : (v = ⟨0, 0, 0⟩ → perpVectors v = none) ∧
    (v ≠ ⟨0, 0, 0⟩ → ∃ a b, perpVectors v = some (a, b) ∧ a.x ^ 2 + a.y ^ 2 + a.z ^ 2 = 1 ∧ b.x ^ 2 + b.y ^ 2 + b.z ^ 2 = 1 ∧
      V3.dot v a = 0 ∧ V3.dot v b = 0 ∧ V3.dot a b = 0) := by
  constructor
  · intro h; rw [perpVectors, if_pos ((zero_iff v).mpr h)]
  · intro h
    have hv : ¬(v.x = 0 ∧ v.y = 0 ∧ v.z = 0) := fun e => h (V3.ext_iff.mpr e)
    set c := V3.cross v (notParallel v) with hc
    have c0 : ¬(c.x = 0 ∧ c.y = 0 ∧ c.z = 0) := by
      rw [hc, notParallel]
      by_cases h1 : |v.x| ≤ |v.y| ∧ |v.x| ≤ |v.z|
      · rw [if_pos h1]
        rintro ⟨_, b, d⟩
        simp only [V3.cross] at b d
        have hy : v.y = 0 := by linarith
        have hz : v.z = 0 := by linarith
        have hx : v.x = 0 := by rw [hy, abs_zero] at h1; exact abs_eq_zero.mp (le_antisymm h1.1 (abs_nonneg _))
        exact hv ⟨hx, hy, hz⟩
      · rw [if_neg h1]
        by_cases h2 : |v.y| ≤ |v.x| ∧ |v.y| ≤ |v.z|
        · rw [if_pos h2]
          rintro ⟨a, _, d⟩
          simp only [V3.cross] at a d
          have hx : v.x = 0 := by linarith
          have hz : v.z = 0 := by linarith
          have hy : v.y = 0 := by rw [hx, abs_zero] at h2; exact abs_eq_zero.mp (le_antisymm h2.1 (abs_nonneg _))
          exact hv ⟨hx, hy, hz⟩
        · rw [if_neg h2]
          rintro ⟨a, b, _⟩
          simp only [V3.cross] at a b
          have hx : v.x = 0 := by linarith
          have hy : v.y = 0 := by linarith
          apply h1
          rw [hx, hy]; simp
    have hn := norm_pos c0
    set a := unitVec c with ha
    have ua := unitVec_unit c0
    rw [← ha] at ua
    have va : V3.dot v a = 0 := by
      have : V3.dot v a = V3.dot v c / V3.norm c := by rw [ha, unitVec_of c0]; simp only [V3.dot]; ring
      rw [this, hc]
      rw [show V3.dot v (V3.cross v (notParallel v)) = 0 by simp only [V3.dot, V3.cross]; ring, zero_div]
    set e := V3.cross v a with he
    have e0 : ¬(e.x = 0 ∧ e.y = 0 ∧ e.z = 0) := by
      rintro ⟨x1, x2, x3⟩
      have id : e.x ^ 2 + e.y ^ 2 + e.z ^ 2 + V3.dot v a ^ 2 = (v.x ^ 2 + v.y ^ 2 + v.z ^ 2) * (a.x ^ 2 + a.y ^ 2 + a.z ^ 2) := by
        rw [he]; simp only [V3.cross, V3.dot]; ring
      rw [x1, x2, x3, va, ua] at id
      have hp := norm_pos hv
      have := norm_sq v
      nlinarith
    have hm := norm_pos e0
    refine ⟨a, unitVec e, ?_, ua, unitVec_unit e0, va, ?_, ?_⟩
    · rw [perpVectors, if_neg (fun k => h ((zero_iff v).mp k))]
    · have : V3.dot v (unitVec e) = V3.dot v e / V3.norm e := by rw [unitVec_of e0]; simp only [V3.dot]; ring
      rw [this, he, show V3.dot v (V3.cross v a) = 0 by simp only [V3.dot, V3.cross]; ring, zero_div]
    · have : V3.dot a (unitVec e) = V3.dot a e / V3.norm e := by rw [unitVec_of e0]; simp only [V3.dot]; ring
      rw [this, he, show V3.dot a (V3.cross v a) = 0 by simp only [V3.dot, V3.cross]; ring, zero_div]

/-! ## Examples and disagreements -/

/-- The plane `z = h`. -/
noncomputable def zplane (h : ℝ) : Plane := ⟨0, 0, 1, -h⟩

theorem zplane_new (h : ℝ) : Plane.new ⟨0, 0, h⟩ ⟨0, 0, 1⟩ = .ret (zplane h) := by
  have : V3.norm ⟨0, 0, 1⟩ = 1 := by simp [V3.norm]
  rw [Plane.new, if_neg (by simp [isZero]), unitVec_of (by simp), this]
  simp [zplane]

/-- The plane `z = h` with the opposite normal. -/
noncomputable def zdown (h : ℝ) : Plane := ⟨0, 0, -1, h⟩

theorem zdown_new (h : ℝ) : Plane.new ⟨0, 0, h⟩ ⟨0, 0, -1⟩ = .ret (zdown h) := by
  have : V3.norm ⟨0, 0, -1⟩ = 1 := by simp [V3.norm]
  rw [Plane.new, if_neg (by simp [isZero]), unitVec_of (by simp), this]
  simp [zdown]

/-- The plane `x = h`. -/
noncomputable def xplane (h : ℝ) : Plane := ⟨1, 0, 0, -h⟩

theorem xplane_new (h : ℝ) : Plane.new ⟨h, 0, 0⟩ ⟨1, 0, 0⟩ = .ret (xplane h) := by
  have : V3.norm ⟨1, 0, 0⟩ = 1 := by simp [V3.norm]
  rw [Plane.new, if_neg (by simp [isZero]), unitVec_of (by simp), this]
  simp [xplane]

theorem zx_norm (h k : ℝ) : V3.norm (V3.cross (zplane h).normal (xplane k).normal) = 1 := by
  simp [V3.norm, V3.cross, Plane.normal, zplane, xplane]

/-- The planes `z = 0` and `z = 5`, the second with the normal downwards: they are parallel and five apart, but the answers are "not parallel" and 0. -/
theorem distPlane_wrong : (zplane 0).parallel (zdown 5) = .ret false ∧ (zplane 0).distPlane (zdown 5) = .ret 0 ∧
    ∀ q1 q2, (zplane 0).On q1 → (zdown 5).On q2 → 5 ≤ eucl q1 q2 := by
  have hu : (zplane 0).Unit := by norm_num [Plane.Unit, zplane]
  obtain ⟨h1, h2⟩ := distPlane_opposite (P := zplane 0) (Q := zdown 5) hu (by simp [Plane.normal, zplane, zdown, V3.neg])
  refine ⟨h1, h2, fun q1 q2 a b => ?_⟩
  simp only [Plane.On, zplane, zdown] at a b
  refine (sq_le_sq₀ (by norm_num) (eucl_nonneg _ _)).mp ?_
  rw [eucl_sq, show q1.z - q2.z = -5 by linarith]
  nlinarith [sq_nonneg (q1.x - q2.x), sq_nonneg (q1.y - q2.y)]

/-- The planes `z = 1` and `x = 0` meet in the line `x = 0, z = 1`; the line returned goes through `(0, 0, -1)` and misses the plane `z = 1`. -/
theorem meetPlane_wrong_example : ∃ l, (zplane 1).meetPlane (xplane 0) = .ret (some l) ∧ l.On ⟨0, 0, -1⟩ ∧ ∀ q, l.On q → ¬(zplane 1).On q := by
  obtain ⟨l, h1, _, _, _, h5⟩ := meetPlane_spec (P := zplane 1) (Q := xplane 0) (by rw [zx_norm]; norm_num [geomEps])
  refine ⟨l, h1, (h5 _).mpr (by norm_num [zplane, xplane]), fun q hq hc => ?_⟩
  have := ((h5 q).mp hq).1
  simp only [Plane.On, zplane] at hc this
  linarith

/-- The plane with the intercepts `10^12` does not have a normal of length one, and the point `(10^12 + 50, 0, 0)`, more than 28 away from the plane, is said to
be on it. -/
theorem onPlane_wrong : ∃ P, Plane.intercepts (10 ^ 12) (10 ^ 12) (10 ^ 12) = .ret P ∧ P.onPlane ⟨10 ^ 12 + 50, 0, 0⟩ geomEps = true ∧
    ∀ q, P.On q → 28 ≤ eucl ⟨10 ^ 12 + 50, 0, 0⟩ q := by
  refine ⟨_, by rw [Plane.intercepts, if_neg (by norm_num)], ?_, fun q hq => ?_⟩
  · rw [Plane.onPlane, decide_eq_true_iff, Plane.val]
    norm_num [geomEps, abs_lt]
  · simp only [Plane.On] at hq
    refine (sq_le_sq₀ (by norm_num) (eucl_nonneg _ _)).mp ?_
    rw [eucl_sq]
    dsimp only
    have hs : (10 ^ 12 + 50 - q.x) + (0 - q.y) + (0 - q.z) = 50 := by
      field_simp at hq
      linarith
    nlinarith [sq_nonneg (10 ^ 12 + 50 - q.x - (0 - q.y)), sq_nonneg (10 ^ 12 + 50 - q.x - (0 - q.z)), sq_nonneg (0 - q.y - (0 - q.z))]

-- The hypotheses are met: planes that meet, parallel planes with the same normal, an inclined line, three points not on a line, Hesse's form.
example : geomEps ≤ V3.norm (V3.cross (zplane 0).normal (xplane 0).normal) ∧ (zplane 0).On ⟨0, 0, 0⟩ ∧ (xplane 0).On ⟨0, 0, 0⟩ := by
  rw [zx_norm]; norm_num [geomEps, Plane.On, zplane, xplane]
example : (zplane 2).Unit ∧ (zplane 2).Proper ∧ (zplane 2).normal = (zplane 7).normal := by
  norm_num [Plane.Unit, Plane.Proper, Plane.normal, zplane]
example : geomEps ≤ |V3.dot (L3.slant ⟨0, 0, 0⟩).dir (xplane 4).normal| := by
  norm_num [V3.dot, L3.slant, Plane.normal, xplane, geomEps, abs_of_pos]
example : V3.cross (V3.sub ⟨1, 0, 0⟩ ⟨0, 0, 0⟩) (V3.sub ⟨0, 2, 3⟩ ⟨0, 0, 0⟩) ≠ (⟨0, 0, 0⟩ : V3 ℝ) := by
  norm_num [V3.cross, V3.sub]
example : Real.cos (Real.pi / 4) ^ 2 + Real.cos (Real.pi / 4) ^ 2 + Real.cos (Real.pi / 2) ^ 2 = 1 := by
  rw [Real.cos_pi_div_four, Real.cos_pi_div_two, div_pow, Real.sq_sqrt (by norm_num)]; norm_num
example : geomEps ≤ |(zplane 0).A - (xplane 0).A| := by norm_num [zplane, xplane, geomEps]

end Verif.Geom.P3
