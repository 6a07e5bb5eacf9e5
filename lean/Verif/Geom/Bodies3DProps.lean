import Verif.Geom.Bodies3D
import Verif.Geom.VolLemmas
import Verif.Geom.Surf3DProps
import Mathlib.Tactic

/-!
# Properties of the solid bodies: interior, volume, centroid, bounding box and sphere (C122)
-/

set_option autoImplicit false

namespace Verif.Geom.Bod

open MeasureTheory
open L3 (eucl)
open B3 (vol Box Sph)

/-! ## Specification -/

/-- `b` is the smallest box that contains `S`. -/
def SmallestBox (S : Set (V3 ℝ)) (b : Box) : Prop := S ⊆ b.pts ∧ ∀ o : Box, S ⊆ o.pts → b.pts ⊆ o.pts

/-- `o` is the smallest sphere with centre `c` that contains `S`. -/
def SmallestSphere (S : Set (V3 ℝ)) (c : V3 ℝ) (o : Outcome Sph) : Prop :=
  ∃ r, o = .ret ⟨c, r⟩ ∧ (∀ p ∈ S, eucl c p ≤ r) ∧ ∃ p ∈ S, eucl c p = r

/-- What the functions of a body say about the set `S` of its points. -/
structure Describes (S : Set (V3 ℝ)) (volume : ℝ) (center : V3 ℝ) (box : Box) (sphere : Outcome Sph) : Prop where
  vol_eq : vol S = ENNReal.ofReal volume
  volume_nonneg : 0 ≤ volume
  centroid : IsCentroid S center
  box_eq : SmallestBox S box
  sphere_eq : SmallestSphere S center sphere

theorem smallestBox_of {S : Set (V3 ℝ)} {lo hi : V3 ℝ} (hx : lo.x ≤ hi.x) (hy : lo.y ≤ hi.y) (hz : lo.z ≤ hi.z)
    (hS : ∀ p ∈ S, lo.x ≤ p.x ∧ p.x ≤ hi.x ∧ lo.y ≤ p.y ∧ p.y ≤ hi.y ∧ lo.z ≤ p.z ∧ p.z ≤ hi.z)
    (h1 : ∃ p ∈ S, p.x = lo.x) (h2 : ∃ p ∈ S, p.x = hi.x) (h3 : ∃ p ∈ S, p.y = lo.y) (h4 : ∃ p ∈ S, p.y = hi.y)
    (h5 : ∃ p ∈ S, p.z = lo.z) (h6 : ∃ p ∈ S, p.z = hi.z) : SmallestBox S (Box.ofCorners lo hi) := by
  have e : Box.ofCorners lo hi = ⟨lo, hi⟩ := B3.normalize_of_ordered ⟨hx, hy, hz⟩
  rw [e]
  refine ⟨hS, fun o ho q hq => ?_⟩
  obtain ⟨a1, a2, a3, a4, a5, a6⟩ := hq
  obtain ⟨p1, m1, e1⟩ := h1
  obtain ⟨p2, m2, e2⟩ := h2
  obtain ⟨p3, m3, e3⟩ := h3
  obtain ⟨p4, m4, e4⟩ := h4
  obtain ⟨p5, m5, e5⟩ := h5
  obtain ⟨p6, m6, e6⟩ := h6
  have b1 := (ho m1).1
  have b2 := (ho m2).2.1
  have b3 := (ho m3).2.2.1
  have b4 := (ho m4).2.2.2.1
  have b5 := (ho m5).2.2.2.2.1
  have b6 := (ho m6).2.2.2.2.2
  dsimp only at a1 a2 a3 a4 a5 a6
  exact ⟨by linarith, by linarith, by linarith, by linarith, by linarith, by linarith⟩

theorem smallestSphere_of {S : Set (V3 ℝ)} {c : V3 ℝ} {r : ℝ} (hr : 0 ≤ r)
    (h : ∀ p ∈ S, (c.x - p.x) ^ 2 + (c.y - p.y) ^ 2 + (c.z - p.z) ^ 2 ≤ r ^ 2)
    (ha : ∃ p ∈ S, (c.x - p.x) ^ 2 + (c.y - p.y) ^ 2 + (c.z - p.z) ^ 2 = r ^ 2) : SmallestSphere S c (Sph.new c r) := by
  refine ⟨r, (B3.sph_new c r).2.1 hr, fun p hp => ?_, ?_⟩
  · rw [eucl]; exact Real.sqrt_le_iff.mpr ⟨hr, h p hp⟩
  · obtain ⟨p, hp, e⟩ := ha
    exact ⟨p, hp, by rw [eucl, e, Real.sqrt_sq hr]⟩

/-! ## Cubes -/

/-- The points that `IsInside` of a cube accepts: those of the cube. -/
theorem cube_inside (c : Cube) (p : V3 ℝ) :
    c.isInside p = true ↔ |p.x - c.center.x| ≤ c.a / 2 ∧ |p.y - c.center.y| ≤ c.a / 2 ∧ |p.z - c.center.z| ≤ c.a / 2 := by
  rw [Cube.isInside, decide_eq_true_iff]
  simp only [abs_le]
  constructor
  · rintro ⟨h1, h2, h3, h4, h5, h6⟩
    exact ⟨⟨by linarith, by linarith⟩, ⟨by linarith, by linarith⟩, by linarith, by linarith⟩
  · rintro ⟨⟨h1, h2⟩, ⟨h3, h4⟩, h5, h6⟩
    exact ⟨by linarith, by linarith, by linarith, by linarith, by linarith, by linarith⟩

/-- Volume, centre, box and sphere of a cube, for a side that is not negative; the two classes give the same sphere. -/
theorem cube_describes (c : Cube) (ha : 0 ≤ c.a) :
    Describes {p | c.isInside p = true} c.volume c.center c.box c.sphere ∧ c.sphereT = c.sphere := by
  have h0 : 0 ≤ c.a / 2 := by positivity
  have hset : {p | c.isInside p = true} = (Box.mk ⟨c.center.x - c.a / 2, c.center.y - c.a / 2, c.center.z - c.a / 2⟩
      ⟨c.center.x + c.a / 2, c.center.y + c.a / 2, c.center.z + c.a / 2⟩).pts := by
    ext p
    simp only [Cube.isInside, decide_eq_true_iff, Set.mem_setOf_eq, Box.pts]
  have hmem : ∀ x y z, |x| ≤ 1 → |y| ≤ 1 → |z| ≤ 1 →
      (⟨c.center.x + x * (c.a / 2), c.center.y + y * (c.a / 2), c.center.z + z * (c.a / 2)⟩ : V3 ℝ) ∈ {p | c.isInside p = true} := by
    intro x y z hx hy hz
    rw [Set.mem_setOf_eq, cube_inside]
    simp only [add_sub_cancel_left, abs_mul, abs_of_nonneg h0]
    exact ⟨by nlinarith, by nlinarith, by nlinarith⟩
  refine ⟨⟨?_, ?_, ?_, ?_, ?_⟩, ?_⟩
  · rw [hset, B3.vol_box _ _ _ _ _ _ (by linarith) (by linarith) (by linarith), Cube.volume]
    congr 1; ring
  · rw [Cube.volume]; positivity
  · refine centroid_of_symm _ _ (fun p hp => ?_) (compact_triples _ hset.le ?_)
    · rw [Set.mem_setOf_eq, cube_inside] at hp ⊢
      have e : ∀ a b : ℝ, |2 * a - b - a| = |b - a| := fun a b => by rw [← abs_neg]; congr 1; ring
      rw [e, e, e]; exact hp
    · have : triples {p | c.isInside p = true} = {p : Fin 3 → ℝ | |p 0 - c.center.x| ≤ c.a / 2} ∩
          ({p : Fin 3 → ℝ | |p 1 - c.center.y| ≤ c.a / 2} ∩ {p : Fin 3 → ℝ | |p 2 - c.center.z| ≤ c.a / 2}) := by
        ext p; exact cube_inside c _
      rw [this]
      exact (isClosed_le (by fun_prop) (by fun_prop)).inter ((isClosed_le (by fun_prop) (by fun_prop)).inter (isClosed_le (by fun_prop) (by fun_prop)))
  · refine smallestBox_of (by dsimp only; linarith) (by dsimp only; linarith) (by dsimp only; linarith) (fun p hp => ?_) ?_ ?_ ?_ ?_ ?_ ?_
    · rw [hset] at hp; exact hp
    · exact ⟨_, hmem (-1) 0 0 (by simp) (by simp) (by simp), by dsimp only; ring⟩
    · exact ⟨_, hmem 1 0 0 (by simp) (by simp) (by simp), by dsimp only; ring⟩
    · exact ⟨_, hmem 0 (-1) 0 (by simp) (by simp) (by simp), by dsimp only; ring⟩
    · exact ⟨_, hmem 0 1 0 (by simp) (by simp) (by simp), by dsimp only; ring⟩
    · exact ⟨_, hmem 0 0 (-1) (by simp) (by simp) (by simp), by dsimp only; ring⟩
    · exact ⟨_, hmem 0 0 1 (by simp) (by simp) (by simp), by dsimp only; ring⟩
  · have h3 : (c.a * Real.sqrt 3 / 2) ^ 2 = 3 * (c.a / 2) ^ 2 := by
      have := Real.sq_sqrt (show (0 : ℝ) ≤ 3 by norm_num)
      linear_combination (c.a ^ 2 / 4) * this
    refine smallestSphere_of (by positivity) (fun p hp => ?_) ⟨_, hmem 1 1 1 (by simp) (by simp) (by simp), ?_⟩
    · rw [Set.mem_setOf_eq, cube_inside] at hp
      obtain ⟨h1, h2, h4⟩ := hp
      have k : ∀ a b : ℝ, |b - a| ≤ c.a / 2 → (a - b) ^ 2 ≤ (c.a / 2) ^ 2 := fun a b h => by
        rw [← sq_abs (a - b), abs_sub_comm]; exact (sq_le_sq₀ (abs_nonneg _) h0).mpr h
      rw [h3]
      linarith [k _ _ h1, k _ _ h2, k _ _ h4]
    · rw [h3]; dsimp only; ring
  · rw [Cube.sphereT, Cube.sphere]; congr 1; ring

/-- A negative side: no point is inside, the bounding sphere is refused. -/
theorem cube_negative (c : Cube) (ha : c.a < 0) :
    (∀ p, c.isInside p = false) ∧ c.sphere = .exn (.mml "ArgumentError") ∧ c.sphereT = .exn (.mml "ArgumentError") := by
  have h3 : 0 < Real.sqrt 3 := Real.sqrt_pos.mpr (by norm_num)
  refine ⟨fun p => ?_, (B3.sph_new _ _).1 ?_, (B3.sph_new _ _).1 ?_⟩
  · by_contra h
    rw [Bool.not_eq_false, cube_inside] at h
    linarith [abs_nonneg (p.x - c.center.x), h.1]
  · have : c.a * Real.sqrt 3 < 0 := mul_neg_of_neg_of_pos ha h3
    linarith
  · exact mul_neg_of_neg_of_pos (by linarith) h3

/-! ## Spheres -/

theorem ball_inside (s : Ball) (hR : 0 ≤ s.R) (p : V3 ℝ) : s.isInside p = true ↔ eucl s.center p ≤ s.R := by
  rw [Ball.isInside, decide_eq_true_iff, eucl, Real.sqrt_le_iff, and_iff_right hR]
  constructor <;> intro h <;> nlinarith

theorem ball_describes (s : Ball) (hR : 0 ≤ s.R) : Describes {p | s.isInside p = true} s.volume s.center s.box s.sphere := by
  have hpi := Real.pi_pos
  have hset : {p | s.isInside p = true} = {p | eucl s.center p ≤ s.R} := by ext p; exact ball_inside s hR p
  have hin : ∀ p : V3 ℝ, p ∈ {p | s.isInside p = true} ↔ (p.x - s.center.x) ^ 2 + (p.y - s.center.y) ^ 2 + (p.z - s.center.z) ^ 2 ≤ s.R ^ 2 := by
    intro p
    rw [Set.mem_setOf_eq, Ball.isInside, decide_eq_true_iff]
    constructor <;> intro h <;> nlinarith
  have hmem : ∀ x y z : ℝ, x ^ 2 + y ^ 2 + z ^ 2 ≤ 1 →
      (⟨s.center.x + x * s.R, s.center.y + y * s.R, s.center.z + z * s.R⟩ : V3 ℝ) ∈ {p | s.isInside p = true} := by
    intro x y z h
    rw [hin]
    simp only [add_sub_cancel_left]
    nlinarith [sq_nonneg s.R]
  have hb : ∀ p ∈ {p | s.isInside p = true}, s.center.x - s.R ≤ p.x ∧ p.x ≤ s.center.x + s.R ∧ s.center.y - s.R ≤ p.y ∧ p.y ≤ s.center.y + s.R ∧
      s.center.z - s.R ≤ p.z ∧ p.z ≤ s.center.z + s.R := by
    intro p hp
    rw [hin] at hp
    have h1 := abs_le_of_sq_le_sq' (show (p.x - s.center.x) ^ 2 ≤ s.R ^ 2 by nlinarith [sq_nonneg (p.y - s.center.y), sq_nonneg (p.z - s.center.z)]) hR
    have h2 := abs_le_of_sq_le_sq' (show (p.y - s.center.y) ^ 2 ≤ s.R ^ 2 by nlinarith [sq_nonneg (p.x - s.center.x), sq_nonneg (p.z - s.center.z)]) hR
    have h3 := abs_le_of_sq_le_sq' (show (p.z - s.center.z) ^ 2 ≤ s.R ^ 2 by nlinarith [sq_nonneg (p.x - s.center.x), sq_nonneg (p.y - s.center.y)]) hR
    exact ⟨by linarith [h1.1], by linarith [h1.2], by linarith [h2.1], by linarith [h2.2], by linarith [h3.1], by linarith [h3.2]⟩
  refine ⟨?_, ?_, ?_, ?_, ?_⟩
  · rw [hset, B3.vol_ball _ _ hR]; rfl
  · rw [Ball.volume]; positivity
  · refine centroid_of_symm _ _ (fun p hp => ?_) (compact_triples ⟨⟨s.center.x - s.R, s.center.y - s.R, s.center.z - s.R⟩,
      ⟨s.center.x + s.R, s.center.y + s.R, s.center.z + s.R⟩⟩ hb ?_)
    · rw [hin] at hp ⊢
      dsimp only; linarith
    · have : triples {p | s.isInside p = true} =
          {p : Fin 3 → ℝ | (p 0 - s.center.x) ^ 2 + (p 1 - s.center.y) ^ 2 + (p 2 - s.center.z) ^ 2 ≤ s.R ^ 2} := by
        ext p; exact hin _
      rw [this]
      exact isClosed_le (by fun_prop) (by fun_prop)
  · refine smallestBox_of (by dsimp only; linarith) (by dsimp only; linarith) (by dsimp only; linarith) hb ?_ ?_ ?_ ?_ ?_ ?_
    · exact ⟨_, hmem (-1) 0 0 (by norm_num), by dsimp only; ring⟩
    · exact ⟨_, hmem 1 0 0 (by norm_num), by dsimp only; ring⟩
    · exact ⟨_, hmem 0 (-1) 0 (by norm_num), by dsimp only; ring⟩
    · exact ⟨_, hmem 0 1 0 (by norm_num), by dsimp only; ring⟩
    · exact ⟨_, hmem 0 0 (-1) (by norm_num), by dsimp only; ring⟩
    · exact ⟨_, hmem 0 0 1 (by norm_num), by dsimp only; ring⟩
  · refine smallestSphere_of hR (fun p hp => ?_) ⟨_, hmem 1 0 0 (by norm_num), by dsimp only; ring⟩
    rw [hin] at hp
    linarith

/-! ## Cylinders -/

theorem cyl_inside (c : Cyl) (p : V3 ℝ) : c.isInside p = true ↔
    c.center.z ≤ p.z ∧ p.z ≤ c.center.z + c.H ∧ (p.x - c.center.x) * (p.x - c.center.x) + (p.y - c.center.y) * (p.y - c.center.y) ≤ c.R * c.R := by
  rw [Cyl.isInside]
  by_cases h : p.z - c.center.z < 0 ∨ c.H < p.z - c.center.z
  · rw [if_pos h]
    simp only [Bool.false_eq_true, false_iff]
    rintro ⟨h1, h2, -⟩
    rcases h with h | h <;> linarith
  · rw [if_neg h, decide_eq_true_iff]
    push Not at h
    constructor
    · intro k; exact ⟨by linarith [h.1], by linarith [h.2], k⟩
    · rintro ⟨-, -, k⟩; exact k

theorem cyl_describes (c : Cyl) (hR : 0 ≤ c.R) (hH : 0 ≤ c.H) :
    Describes {p | c.isInside p = true} c.volume c.getCenter c.box c.sphere := by
  have hpi := Real.pi_pos
  have hin : ∀ p : V3 ℝ, p ∈ {p | c.isInside p = true} ↔ c.center.z ≤ p.z ∧ p.z ≤ c.center.z + c.H ∧
      (p.x - c.center.x) ^ 2 + (p.y - c.center.y) ^ 2 ≤ c.R ^ 2 := by
    intro p
    rw [Set.mem_setOf_eq, cyl_inside]
    simp only [sq]
  have hmem : ∀ x y z : ℝ, x ^ 2 + y ^ 2 ≤ 1 → 0 ≤ z → z ≤ 1 →
      (⟨c.center.x + x * c.R, c.center.y + y * c.R, c.center.z + z * c.H⟩ : V3 ℝ) ∈ {p | c.isInside p = true} := by
    intro x y z h h0 h1
    rw [hin]
    simp only [add_sub_cancel_left]
    exact ⟨by nlinarith, by nlinarith, by nlinarith [sq_nonneg c.R]⟩
  have hb : ∀ p ∈ {p | c.isInside p = true}, c.center.x - c.R ≤ p.x ∧ p.x ≤ c.center.x + c.R ∧ c.center.y - c.R ≤ p.y ∧ p.y ≤ c.center.y + c.R ∧
      c.center.z ≤ p.z ∧ p.z ≤ c.center.z + c.H := by
    intro p hp
    rw [hin] at hp
    obtain ⟨k1, k2, hp⟩ := hp
    have h1 := abs_le_of_sq_le_sq' (show (p.x - c.center.x) ^ 2 ≤ c.R ^ 2 by nlinarith [sq_nonneg (p.y - c.center.y)]) hR
    have h2 := abs_le_of_sq_le_sq' (show (p.y - c.center.y) ^ 2 ≤ c.R ^ 2 by nlinarith [sq_nonneg (p.x - c.center.x)]) hR
    exact ⟨by linarith [h1.1], by linarith [h1.2], by linarith [h2.1], by linarith [h2.2], k1, k2⟩
  have hcl : IsClosed (triples {p | c.isInside p = true}) := by
    have : triples {p | c.isInside p = true} = {p : Fin 3 → ℝ | c.center.z ≤ p 2} ∩ ({p : Fin 3 → ℝ | p 2 ≤ c.center.z + c.H} ∩
        {p : Fin 3 → ℝ | (p 0 - c.center.x) ^ 2 + (p 1 - c.center.y) ^ 2 ≤ c.R ^ 2}) := by
      ext p; exact hin _
    rw [this]
    exact (isClosed_le (by fun_prop) (by fun_prop)).inter ((isClosed_le (by fun_prop) (by fun_prop)).inter (isClosed_le (by fun_prop) (by fun_prop)))
  refine ⟨?_, ?_, ?_, ?_, ?_⟩
  · rw [vol_of_slices _ (zFirst_closed hcl).measurableSet c.center.z (c.center.z + c.H) (by linarith) (fun _ => Real.pi * c.R * c.R) (by fun_prop)
      (fun z _ => by positivity)]
    · simp only [intervalIntegral.integral_const, smul_eq_mul, Cyl.volume]
      congr 1; ring
    · intro z hz
      rw [← disc_area c.center.x c.center.y c.R hR]
      congr 1; ext q
      simp only [Set.mem_setOf_eq, cyl_inside]
      exact ⟨fun h => h.2.2, fun h => ⟨hz.1, hz.2, h⟩⟩
    · intro z hz x y h
      rw [Set.mem_setOf_eq, cyl_inside] at h
      exact hz ⟨h.1, h.2.1⟩
  · rw [Cyl.volume]; positivity
  · refine centroid_of_symm _ _ (fun p hp => ?_) (compact_triples ⟨⟨c.center.x - c.R, c.center.y - c.R, c.center.z⟩,
      ⟨c.center.x + c.R, c.center.y + c.R, c.center.z + c.H⟩⟩ hb hcl)
    rw [hin] at hp ⊢
    simp only [Cyl.getCenter]
    exact ⟨by linarith [hp.2.1], by linarith [hp.1], by nlinarith [hp.2.2]⟩
  · refine smallestBox_of (by dsimp only; linarith) (by dsimp only; linarith) (by dsimp only; linarith) hb ?_ ?_ ?_ ?_ ?_ ?_
    · exact ⟨_, hmem (-1) 0 0 (by norm_num) (by norm_num) (by norm_num), by dsimp only; ring⟩
    · exact ⟨_, hmem 1 0 0 (by norm_num) (by norm_num) (by norm_num), by dsimp only; ring⟩
    · exact ⟨_, hmem 0 (-1) 0 (by norm_num) (by norm_num) (by norm_num), by dsimp only; ring⟩
    · exact ⟨_, hmem 0 1 0 (by norm_num) (by norm_num) (by norm_num), by dsimp only; ring⟩
    · exact ⟨_, hmem 0 0 0 (by norm_num) (by norm_num) (by norm_num), by dsimp only; ring⟩
    · exact ⟨_, hmem 0 0 1 (by norm_num) (by norm_num) (by norm_num), by dsimp only; ring⟩
  · have h3 : Real.sqrt (c.R * c.R + c.H / 2 * (c.H / 2)) ^ 2 = c.R ^ 2 + (c.H / 2) ^ 2 := by
      rw [Real.sq_sqrt (by nlinarith [mul_self_nonneg c.R, mul_self_nonneg (c.H / 2)])]; ring
    refine smallestSphere_of (Real.sqrt_nonneg _) (fun p hp => ?_) ⟨_, hmem 1 0 1 (by norm_num) (by norm_num) (by norm_num), ?_⟩
    · rw [hin] at hp
      rw [h3]; simp only [Cyl.getCenter]
      nlinarith [hp.1, hp.2.1, hp.2.2]
    · rw [h3]; simp only [Cyl.getCenter]; ring

/-- The constructor without a centre puts the middle at the origin. -/
theorem cyl_origin (R H : ℝ) (n : Int) : (Cyl.atOrigin R H n).getCenter = ⟨0, 0, 0⟩ := by
  simp only [Cyl.atOrigin, Cyl.getCenter, V3.mk.injEq, true_and]; ring

/-! ## Pyramids -/

theorem pyr_inside (P : Pyr) (hh : 0 < P.h) (p : V3 ℝ) : (∃ b, P.isInside p = .ret b) ∧ (P.isInside p = .ret true ↔
    P.center.z ≤ p.z ∧ p.z ≤ P.center.z + P.h ∧ |p.x - P.center.x| ≤ P.a / 2 * (1 - (p.z - P.center.z) / P.h) ∧
    |p.y - P.center.y| ≤ P.a / 2 * (1 - (p.z - P.center.z) / P.h)) := by
  rw [Pyr.isInside]
  by_cases h : p.z - P.center.z < 0 ∨ P.h < p.z - P.center.z
  · rw [if_pos h]
    refine ⟨⟨_, rfl⟩, ?_⟩
    simp only [Outcome.ret.injEq, Bool.false_eq_true, false_iff]
    rintro ⟨h1, h2, -⟩
    rcases h with h | h <;> linarith
  · rw [if_neg h, CompGeo.Poly.fdiv_of_ne hh.ne', Outcome.bind_ret]
    refine ⟨⟨_, rfl⟩, ?_⟩
    simp only [Outcome.ret.injEq, decide_eq_true_iff]
    push Not at h
    constructor
    · intro k; exact ⟨by linarith [h.1], by linarith [h.2], k⟩
    · rintro ⟨-, -, k⟩; exact k

/-- A height of zero: at the level of the base `IsInside` divides zero by zero. -/
theorem pyr_flat (P : Pyr) (hh : P.h = 0) (p : V3 ℝ) (hz : p.z = P.center.z) : P.isInside p = .ub := by
  rw [Pyr.isInside, hh, hz]
  have : ¬(P.center.z - P.center.z < 0 ∨ 0 < P.center.z - P.center.z) := by simp
  rw [if_neg this, Interp.fdiv, if_pos rfl, Outcome.bind_ub]

theorem pyr_describes (P : Pyr) (ha : 0 ≤ P.a) (hh : 0 < P.h) :
    Describes {p | P.isInside p = .ret true} P.volume P.getCenter P.box P.sphere := by
  have hin : ∀ p : V3 ℝ, p ∈ {p | P.isInside p = .ret true} ↔ P.center.z ≤ p.z ∧ p.z ≤ P.center.z + P.h ∧
      |p.x - P.center.x| ≤ P.a / 2 * (1 - (p.z - P.center.z) / P.h) ∧ |p.y - P.center.y| ≤ P.a / 2 * (1 - (p.z - P.center.z) / P.h) :=
    fun p => (pyr_inside P hh p).2
  have hu : ∀ z, P.center.z ≤ z → z ≤ P.center.z + P.h → 0 ≤ (z - P.center.z) / P.h ∧ (z - P.center.z) / P.h ≤ 1 := by
    intro z h1 h2
    exact ⟨div_nonneg (by linarith) hh.le, (div_le_one hh).mpr (by linarith)⟩
  have hmem : ∀ x y t : ℝ, 0 ≤ t → t ≤ 1 → |x| ≤ 1 - t → |y| ≤ 1 - t →
      (⟨P.center.x + x * (P.a / 2), P.center.y + y * (P.a / 2), P.center.z + t * P.h⟩ : V3 ℝ) ∈ {p | P.isInside p = .ret true} := by
    intro x y t h0 h1 hx hy
    have h0' : 0 ≤ P.a / 2 := by positivity
    rw [hin]
    simp only [add_sub_cancel_left, abs_mul, abs_of_nonneg h0', mul_div_assoc, div_self hh.ne', mul_one]
    exact ⟨by nlinarith, by nlinarith, by nlinarith, by nlinarith⟩
  have hb : ∀ p ∈ {p | P.isInside p = .ret true}, P.center.x - P.a / 2 ≤ p.x ∧ p.x ≤ P.center.x + P.a / 2 ∧ P.center.y - P.a / 2 ≤ p.y ∧
      p.y ≤ P.center.y + P.a / 2 ∧ P.center.z ≤ p.z ∧ p.z ≤ P.center.z + P.h := by
    intro p hp
    rw [hin] at hp
    obtain ⟨k1, k2, k3, k4⟩ := hp
    obtain ⟨u0, u1⟩ := hu _ k1 k2
    have hs : P.a / 2 * (1 - (p.z - P.center.z) / P.h) ≤ P.a / 2 := by nlinarith
    have h1 := abs_le.mp (k3.trans hs)
    have h2 := abs_le.mp (k4.trans hs)
    exact ⟨by linarith [h1.1], by linarith [h1.2], by linarith [h2.1], by linarith [h2.2], k1, k2⟩
  have hcl : IsClosed (triples {p | P.isInside p = .ret true}) := by
    have : triples {p | P.isInside p = .ret true} = {p : Fin 3 → ℝ | P.center.z ≤ p 2} ∩ ({p : Fin 3 → ℝ | p 2 ≤ P.center.z + P.h} ∩
        ({p : Fin 3 → ℝ | |p 0 - P.center.x| ≤ P.a / 2 * (1 - (p 2 - P.center.z) / P.h)} ∩
         {p : Fin 3 → ℝ | |p 1 - P.center.y| ≤ P.a / 2 * (1 - (p 2 - P.center.z) / P.h)})) := by
      ext p; exact hin _
    rw [this]
    exact (isClosed_le (by fun_prop) (by fun_prop)).inter ((isClosed_le (by fun_prop) (by fun_prop)).inter
      ((isClosed_le (by fun_prop) (by fun_prop)).inter (isClosed_le (by fun_prop) (by fun_prop))))
  have hslice : ∀ z ∈ Set.Icc P.center.z (P.center.z + P.h), volume {q : ℝ × ℝ | (⟨q.1, q.2, z⟩ : V3 ℝ) ∈ {p | P.isInside p = .ret true}} =
      ENNReal.ofReal (P.a ^ 2 * (1 - (z - P.center.z) / P.h) ^ 2) := by
    intro z hz
    obtain ⟨u0, u1⟩ := hu z hz.1 hz.2
    have := square_area P.center.x P.center.y (P.a / 2 * (1 - (z - P.center.z) / P.h)) (mul_nonneg (by linarith) (by linarith))
    rw [show P.a ^ 2 * (1 - (z - P.center.z) / P.h) ^ 2 = 4 * (P.a / 2 * (1 - (z - P.center.z) / P.h)) ^ 2 by ring, ← this]
    congr 1; ext q
    rw [Set.mem_setOf_eq, hin]
    exact ⟨fun h => h.2.2, fun h => ⟨hz.1, hz.2, h⟩⟩
  have hout : ∀ z, z ∉ Set.Icc P.center.z (P.center.z + P.h) → ∀ x y, (⟨x, y, z⟩ : V3 ℝ) ∉ {p | P.isInside p = .ret true} := by
    intro z hz x y h
    rw [hin] at h
    exact hz ⟨h.1, h.2.1⟩
  have hend : (P.center.z + P.h - P.center.z) / P.h = 1 := by rw [add_sub_cancel_left, div_self hh.ne']
  refine ⟨?_, ?_, ?_, ?_, ?_⟩
  · rw [vol_of_slices _ (zFirst_closed hcl).measurableSet P.center.z (P.center.z + P.h) (by linarith) _ (by fun_prop)
      (fun z _ => by positivity) hslice hout]
    congr 1
    have hd : ∀ z ∈ Set.uIcc P.center.z (P.center.z + P.h), HasDerivAt (fun z => -(P.a ^ 2 * P.h / 3 * (1 - (z - P.center.z) / P.h) ^ 3))
        (P.a ^ 2 * (1 - (z - P.center.z) / P.h) ^ 2) z := by
      intro z _
      have h1 : HasDerivAt (fun z => 1 - (z - P.center.z) / P.h) (-(1 / P.h)) z := by
        have := (((hasDerivAt_id z).sub_const P.center.z).div_const P.h).const_sub 1
        simpa using this
      have h2 := ((h1.pow 3).const_mul (P.a ^ 2 * P.h / 3)).neg
      refine HasDerivAt.congr_deriv (f := fun z => -(P.a ^ 2 * P.h / 3 * (1 - (z - P.center.z) / P.h) ^ 3)) h2 ?_
      push_cast
      field_simp
    rw [intervalIntegral.integral_eq_sub_of_hasDerivAt hd ((by fun_prop : Continuous _).intervalIntegrable _ _), hend, Pyr.volume, sub_self 1, sub_self P.center.z, zero_div]
    ring
  · rw [Pyr.volume]; positivity
  · refine centroid_of_axis _ _ (fun p hp => ?_) ⟨⟨P.center.x - P.a / 2, P.center.y - P.a / 2, P.center.z⟩,
      ⟨P.center.x + P.a / 2, P.center.y + P.a / 2, P.center.z + P.h⟩⟩ hb hcl ?_
    · rw [hin] at hp ⊢
      have e : ∀ a b : ℝ, |2 * a - b - a| = |b - a| := fun a b => by rw [← abs_neg]; congr 1; ring
      simp only [Pyr.getCenter, e]; exact hp
    · have e : (fun z => (volume {q : ℝ × ℝ | (⟨q.1, q.2, z⟩ : V3 ℝ) ∈ {p | P.isInside p = .ret true}}).toReal * (z - P.getCenter.z)) =
          (Set.Icc P.center.z (P.center.z + P.h)).indicator
            (fun z => P.a ^ 2 * (1 - (z - P.center.z) / P.h) ^ 2 * (z - (P.center.z + P.h / 4))) := by
        funext z
        by_cases hz : z ∈ Set.Icc P.center.z (P.center.z + P.h)
        · rw [Set.indicator_of_mem hz, hslice z hz, ENNReal.toReal_ofReal (by positivity), Pyr.getCenter]
        · rw [Set.indicator_of_notMem hz]
          have : {q : ℝ × ℝ | (⟨q.1, q.2, z⟩ : V3 ℝ) ∈ {p | P.isInside p = .ret true}} = ∅ := by
            ext q; simp only [Set.mem_setOf_eq, Set.mem_empty_iff_false, iff_false]; exact hout z hz _ _
          rw [this, measure_empty, ENNReal.toReal_zero, zero_mul]
      rw [e, integral_indicator measurableSet_Icc, integral_Icc_eq_integral_Ioc, ← intervalIntegral.integral_of_le (by linarith)]
      have hd : ∀ z ∈ Set.uIcc P.center.z (P.center.z + P.h), HasDerivAt
          (fun z => P.a ^ 2 * P.h ^ 2 * (-((z - P.center.z) / P.h) / 4 + 3 / 4 * ((z - P.center.z) / P.h) ^ 2 - 3 / 4 * ((z - P.center.z) / P.h) ^ 3 + 1 / 4 * ((z - P.center.z) / P.h) ^ 4))
          (P.a ^ 2 * (1 - (z - P.center.z) / P.h) ^ 2 * (z - (P.center.z + P.h / 4))) z := by
        intro z _
        have h1 : HasDerivAt (fun z => (z - P.center.z) / P.h) (1 / P.h) z := by
          have := (((hasDerivAt_id z).sub_const P.center.z).div_const P.h)
          simpa using this
        have h2 := ((((h1.neg.div_const 4).add ((h1.pow 2).const_mul (3 / 4))).sub ((h1.pow 3).const_mul (3 / 4))).add
          ((h1.pow 4).const_mul (1 / 4))).const_mul (P.a ^ 2 * P.h ^ 2)
        refine HasDerivAt.congr_deriv (f := fun z => P.a ^ 2 * P.h ^ 2 * (-((z - P.center.z) / P.h) / 4 + 3 / 4 * ((z - P.center.z) / P.h) ^ 2 - 3 / 4 * ((z - P.center.z) / P.h) ^ 3 + 1 / 4 * ((z - P.center.z) / P.h) ^ 4)) h2 ?_
        push_cast
        field_simp
        ring
      rw [intervalIntegral.integral_eq_sub_of_hasDerivAt hd ((by fun_prop : Continuous _).intervalIntegrable _ _), hend, sub_self, zero_div]
      ring
  · refine smallestBox_of (by dsimp only; linarith) (by dsimp only; linarith) (by dsimp only; linarith) hb ?_ ?_ ?_ ?_ ?_ ?_
    · exact ⟨_, hmem (-1) 0 0 (by norm_num) (by norm_num) (by norm_num) (by norm_num), by dsimp only; ring⟩
    · exact ⟨_, hmem 1 0 0 (by norm_num) (by norm_num) (by norm_num) (by norm_num), by dsimp only; ring⟩
    · exact ⟨_, hmem 0 (-1) 0 (by norm_num) (by norm_num) (by norm_num) (by norm_num), by dsimp only; ring⟩
    · exact ⟨_, hmem 0 1 0 (by norm_num) (by norm_num) (by norm_num) (by norm_num), by dsimp only; ring⟩
    · exact ⟨_, hmem 0 0 0 (by norm_num) (by norm_num) (by norm_num) (by norm_num), by dsimp only; ring⟩
    · exact ⟨_, hmem 0 0 1 (by norm_num) (by norm_num) (by norm_num) (by norm_num), by dsimp only; ring⟩
  · set r1 := Real.sqrt (P.a / 2 * (P.a / 2) + P.a / 2 * (P.a / 2) + P.h / 4 * (P.h / 4)) with hr1
    have h3 : r1 ^ 2 = 2 * (P.a / 2) ^ 2 + (P.h / 4) ^ 2 := by
      rw [hr1, Real.sq_sqrt (by positivity)]; ring
    have hr0 : 0 ≤ r1 := Real.sqrt_nonneg _
    refine smallestSphere_of (le_max_of_le_left hr0) (fun p hp => ?_) ?_
    · rw [hin] at hp
      obtain ⟨k1, k2, k3, k4⟩ := hp
      obtain ⟨u0, u1⟩ := hu _ k1 k2
      set u := (p.z - P.center.z) / P.h with hudef
      have hz : p.z = P.center.z + u * P.h := by rw [hudef]; field_simp; ring
      have hs0 : 0 ≤ P.a / 2 * (1 - u) := mul_nonneg (by linarith) (by linarith)
      have q1 : (p.x - P.center.x) ^ 2 ≤ (P.a / 2 * (1 - u)) ^ 2 := by rw [← sq_abs (p.x - _)]; exact (sq_le_sq₀ (abs_nonneg _) hs0).mpr k3
      have q2 : (p.y - P.center.y) ^ 2 ≤ (P.a / 2 * (1 - u)) ^ 2 := by rw [← sq_abs (p.y - _)]; exact (sq_le_sq₀ (abs_nonneg _) hs0).mpr k4
      have hM1 : r1 ^ 2 ≤ (max r1 (3 * P.h / 4)) ^ 2 := pow_le_pow_left₀ hr0 (le_max_left _ _) 2
      have hM2 : (3 * P.h / 4) ^ 2 ≤ (max r1 (3 * P.h / 4)) ^ 2 := pow_le_pow_left₀ (by positivity) (le_max_right _ _) 2
      simp only [Pyr.getCenter]
      have hconv : 2 * (P.a / 2 * (1 - u)) ^ 2 + (P.h / 4 - u * P.h) ^ 2 ≤ (1 - u) * r1 ^ 2 + u * (3 * P.h / 4) ^ 2 := by
        rw [h3]
        nlinarith [mul_nonneg u0 (sub_nonneg.mpr u1), mul_nonneg (mul_nonneg u0 (sub_nonneg.mpr u1)) (sq_nonneg P.a),
          mul_nonneg (mul_nonneg u0 (sub_nonneg.mpr u1)) (sq_nonneg P.h)]
      have hz2 : (P.center.z + P.h / 4 - p.z) ^ 2 = (P.h / 4 - u * P.h) ^ 2 := by rw [hz]; ring
      rw [hz2]
      have : (1 - u) * r1 ^ 2 + u * (3 * P.h / 4) ^ 2 ≤ (max r1 (3 * P.h / 4)) ^ 2 := by
        nlinarith [mul_le_mul_of_nonneg_left hM1 (sub_nonneg.mpr u1), mul_le_mul_of_nonneg_left hM2 u0]
      nlinarith
    · rcases le_total r1 (3 * P.h / 4) with h | h
      · rw [max_eq_right h]
        exact ⟨_, hmem 0 0 1 (by norm_num) (by norm_num) (by norm_num) (by norm_num), by simp only [Pyr.getCenter]; ring⟩
      · rw [max_eq_left h, h3]
        exact ⟨_, hmem 1 1 0 (by norm_num) (by norm_num) (by norm_num) (by norm_num), by simp only [Pyr.getCenter]; ring⟩

/-! ## Torus -/

theorem torus_inside (T : Torus) (hr : 0 ≤ T.r) (p : V3 ℝ) : T.isInside p = true ↔
    (axisDist (p.x - T.center.x) (p.y - T.center.y) - T.R) ^ 2 + (p.z - T.center.z) ^ 2 ≤ T.r ^ 2 := by
  rw [Torus.isInside, decide_eq_true_iff, Real.sqrt_le_iff, and_iff_right hr]
  simp only [sq]

/-- Which points `IsInside` of a torus accepts: those within `r` of the circle of radius `R` about the axis. -/
theorem torus_inside_circle (T : Torus) (hr : 0 ≤ T.r) (hR : 0 ≤ T.R) (p : V3 ℝ) : T.isInside p = true ↔
    ∃ u : ℝ, eucl p ⟨T.center.x + T.R * Real.cos u, T.center.y + T.R * Real.sin u, T.center.z⟩ ≤ T.r := by
  rw [torus_inside T hr p]
  set dx := p.x - T.center.x with hdx
  set dy := p.y - T.center.y with hdy
  have ha : axisDist dx dy ^ 2 = dx ^ 2 + dy ^ 2 := by
    rw [axisDist, Real.sq_sqrt (by nlinarith [mul_self_nonneg dx, mul_self_nonneg dy])]; ring
  have ha0 : 0 ≤ axisDist dx dy := Real.sqrt_nonneg _
  have hx : ∀ u : ℝ, (p.x - (T.center.x + T.R * Real.cos u)) ^ 2 + (p.y - (T.center.y + T.R * Real.sin u)) ^ 2 + (p.z - T.center.z) ^ 2 =
      axisDist dx dy ^ 2 + T.R ^ 2 - 2 * T.R * (dx * Real.cos u + dy * Real.sin u) + (p.z - T.center.z) ^ 2 := by
    intro u
    have := Real.sin_sq_add_cos_sq u
    rw [ha]
    have e1 : p.x - (T.center.x + T.R * Real.cos u) = dx - T.R * Real.cos u := by rw [hdx]; ring
    have e2 : p.y - (T.center.y + T.R * Real.sin u) = dy - T.R * Real.sin u := by rw [hdy]; ring
    rw [e1, e2]
    linear_combination T.R ^ 2 * this
  constructor
  · intro h
    have hc : ∃ u : ℝ, dx = axisDist dx dy * Real.cos u ∧ dy = axisDist dx dy * Real.sin u := by
      refine ⟨Complex.arg ⟨dx, dy⟩, ?_, ?_⟩
      · have := Complex.norm_mul_cos_arg (⟨dx, dy⟩ : ℂ)
        rw [Complex.norm_eq_sqrt_sq_add_sq] at this
        simp only [sq] at this
        exact this.symm
      · have := Complex.norm_mul_sin_arg (⟨dx, dy⟩ : ℂ)
        rw [Complex.norm_eq_sqrt_sq_add_sq] at this
        simp only [sq] at this
        exact this.symm
    obtain ⟨u, h1, h2⟩ := hc
    refine ⟨u, ?_⟩
    rw [eucl, Real.sqrt_le_iff]
    refine ⟨hr, ?_⟩
    rw [hx u]
    have h3 : dx * Real.cos u + dy * Real.sin u = axisDist dx dy := by
      have := Real.sin_sq_add_cos_sq u
      calc dx * Real.cos u + dy * Real.sin u = axisDist dx dy * Real.cos u * Real.cos u + axisDist dx dy * Real.sin u * Real.sin u := by rw [← h1, ← h2]
        _ = axisDist dx dy := by linear_combination axisDist dx dy * this
    rw [h3]; linarith
  · rintro ⟨u, h⟩
    rw [eucl, Real.sqrt_le_iff, hx u] at h
    have h4 : dx * Real.cos u + dy * Real.sin u ≤ axisDist dx dy := by
      refine le_of_sq_le_sq ?_ ha0
      have := Real.sin_sq_add_cos_sq u
      rw [ha]
      nlinarith [sq_nonneg (dx * Real.sin u - dy * Real.cos u)]
    nlinarith [h.2, mul_le_mul_of_nonneg_left h4 hR]

theorem torus_describes (T : Torus) (hr : 0 ≤ T.r) (hrR : T.r ≤ T.R) :
    Describes {p | T.isInside p = true} T.volume T.center T.box T.sphere := by
  have hpi := Real.pi_pos
  have hR : 0 ≤ T.R := hr.trans hrR
  have hin : ∀ p : V3 ℝ, p ∈ {p | T.isInside p = true} ↔
      (axisDist (p.x - T.center.x) (p.y - T.center.y) - T.R) ^ 2 + (p.z - T.center.z) ^ 2 ≤ T.r ^ 2 := torus_inside T hr
  have ha : ∀ x y : ℝ, axisDist x y ^ 2 = x ^ 2 + y ^ 2 := fun x y => by
    rw [axisDist, Real.sq_sqrt (by nlinarith [mul_self_nonneg x, mul_self_nonneg y])]; ring
  have ha0 : ∀ x y : ℝ, 0 ≤ axisDist x y := fun x y => Real.sqrt_nonneg _
  have hd : ∀ p ∈ {p | T.isInside p = true}, axisDist (p.x - T.center.x) (p.y - T.center.y) ≤ T.R + T.r := by
    intro p hp
    rw [hin] at hp
    have := abs_le_of_sq_le_sq' (show (axisDist (p.x - T.center.x) (p.y - T.center.y) - T.R) ^ 2 ≤ T.r ^ 2 by nlinarith [sq_nonneg (p.z - T.center.z)]) hr
    linarith [this.2]
  have hb : ∀ p ∈ {p | T.isInside p = true}, T.center.x - (T.R + T.r) ≤ p.x ∧ p.x ≤ T.center.x + (T.R + T.r) ∧ T.center.y - (T.R + T.r) ≤ p.y ∧
      p.y ≤ T.center.y + (T.R + T.r) ∧ T.center.z - T.r ≤ p.z ∧ p.z ≤ T.center.z + T.r := by
    intro p hp
    have k := hd p hp
    rw [hin] at hp
    have e := ha (p.x - T.center.x) (p.y - T.center.y)
    have e0 := ha0 (p.x - T.center.x) (p.y - T.center.y)
    have k2 : axisDist (p.x - T.center.x) (p.y - T.center.y) ^ 2 ≤ (T.R + T.r) ^ 2 := pow_le_pow_left₀ e0 k 2
    have h1 := abs_le_of_sq_le_sq' (show (p.x - T.center.x) ^ 2 ≤ (T.R + T.r) ^ 2 by nlinarith [sq_nonneg (p.y - T.center.y)]) (by linarith)
    have h2 := abs_le_of_sq_le_sq' (show (p.y - T.center.y) ^ 2 ≤ (T.R + T.r) ^ 2 by nlinarith [sq_nonneg (p.x - T.center.x)]) (by linarith)
    have h3 := abs_le_of_sq_le_sq' (show (p.z - T.center.z) ^ 2 ≤ T.r ^ 2 by
      nlinarith [sq_nonneg (axisDist (p.x - T.center.x) (p.y - T.center.y) - T.R)]) hr
    exact ⟨by linarith [h1.1], by linarith [h1.2], by linarith [h2.1], by linarith [h2.2], by linarith [h3.1], by linarith [h3.2]⟩
  have hcl : IsClosed (triples {p | T.isInside p = true}) := by
    have : triples {p | T.isInside p = true} =
        {p : Fin 3 → ℝ | (Real.sqrt ((p 0 - T.center.x) * (p 0 - T.center.x) + (p 1 - T.center.y) * (p 1 - T.center.y)) - T.R) ^ 2 + (p 2 - T.center.z) ^ 2 ≤ T.r ^ 2} := by
      ext p; exact hin _
    rw [this]
    exact isClosed_le (by fun_prop) (by fun_prop)
  have hax : ∀ a, 0 ≤ a → axisDist a 0 = a ∧ axisDist (-a) 0 = a ∧ axisDist 0 a = a ∧ axisDist 0 (-a) = a := by
    intro a h
    simp only [axisDist, mul_zero, add_zero, zero_add, neg_mul_neg]
    simp only [Real.sqrt_mul_self h, and_self]
  have hm1 : ∀ x y z, axisDist x y = T.R + T.r → z = T.center.z → (⟨T.center.x + x, T.center.y + y, z⟩ : V3 ℝ) ∈ {p | T.isInside p = true} := by
    intro x y z h hz
    rw [hin]
    simp only [add_sub_cancel_left, h, hz]
    ring_nf; exact le_refl _
  have hm2 : ∀ z, (z - T.center.z) ^ 2 = T.r ^ 2 → (⟨T.center.x + T.R, T.center.y + 0, z⟩ : V3 ℝ) ∈ {p | T.isInside p = true} := by
    intro z hz
    rw [hin]
    simp only [add_sub_cancel_left, (hax T.R hR).1, hz, sub_self]
    simp
  have hRr : 0 ≤ T.R + T.r := by linarith
  refine ⟨?_, ?_, ?_, ?_, ?_⟩
  · rw [vol_of_slices _ (zFirst_closed hcl).measurableSet (T.center.z - T.r) (T.center.z + T.r) (by linarith)
      (fun z => 4 * Real.pi * T.R * Real.sqrt (T.r * T.r - (z - T.center.z) * (z - T.center.z))) (by fun_prop) (fun z _ => by positivity)]
    · rw [intervalIntegral.integral_const_mul, intervalIntegral.integral_comp_sub_right (fun z => Real.sqrt (T.r * T.r - z * z)),
        show T.center.z - T.r - T.center.z = -T.r by ring, show T.center.z + T.r - T.center.z = T.r by ring, half_disc T.r hr, Torus.volume]
      congr 1; ring
    · intro z hz
      have hz2 : (z - T.center.z) * (z - T.center.z) ≤ T.r * T.r := by nlinarith [hz.1, hz.2]
      set w := Real.sqrt (T.r * T.r - (z - T.center.z) * (z - T.center.z)) with hw
      have hw0 : 0 ≤ w := Real.sqrt_nonneg _
      have hw2 : w ^ 2 = T.r * T.r - (z - T.center.z) * (z - T.center.z) := Real.sq_sqrt (by linarith)
      have hwr : w ≤ T.r := le_of_sq_le_sq (by rw [hw2]; nlinarith [mul_self_nonneg (z - T.center.z)]) hr
      rw [show 4 * Real.pi * T.R * w = Real.pi * (T.R + w) * (T.R + w) - Real.pi * (T.R - w) * (T.R - w) by ring,
        ← ring_area T.center.x T.center.y (T.R - w) (T.R + w) (by linarith) (by linarith)]
      congr 1; ext q
      rw [Set.mem_setOf_eq, hin, Set.mem_setOf_eq]
      have e := ha (q.1 - T.center.x) (q.2 - T.center.y)
      have e0 := ha0 (q.1 - T.center.x) (q.2 - T.center.y)
      set d := axisDist (q.1 - T.center.x) (q.2 - T.center.y)
      have e' : (q.1 - T.center.x) * (q.1 - T.center.x) + (q.2 - T.center.y) * (q.2 - T.center.y) = d ^ 2 := by rw [e]; ring
      rw [e']
      constructor
      · intro h
        have := abs_le_of_sq_le_sq' (show (d - T.R) ^ 2 ≤ w ^ 2 by rw [hw2]; linarith) hw0
        exact ⟨by nlinarith [this.1], by nlinarith [this.2]⟩
      · rintro ⟨h1, h2⟩
        have k1 : T.R - w ≤ d := le_of_sq_le_sq (by linarith) e0
        have k2 : d ≤ T.R + w := le_of_sq_le_sq (by linarith) (by linarith)
        have : (d - T.R) ^ 2 ≤ w ^ 2 := sq_le_sq' (by linarith) (by linarith)
        rw [hw2] at this
        linarith
    · intro z hz x y h
      have := hb _ h
      exact hz ⟨this.2.2.2.2.1, this.2.2.2.2.2⟩
  · rw [Torus.volume]; positivity
  · refine centroid_of_symm _ _ (fun p hp => ?_) (compact_triples ⟨⟨T.center.x - (T.R + T.r), T.center.y - (T.R + T.r), T.center.z - T.r⟩,
      ⟨T.center.x + (T.R + T.r), T.center.y + (T.R + T.r), T.center.z + T.r⟩⟩ hb hcl)
    rw [hin] at hp ⊢
    have : axisDist (2 * T.center.x - p.x - T.center.x) (2 * T.center.y - p.y - T.center.y) = axisDist (p.x - T.center.x) (p.y - T.center.y) := by
      rw [axisDist, axisDist]; congr 1; ring
    rw [this]
    linarith
  · refine smallestBox_of (by dsimp only; linarith) (by dsimp only; linarith) (by dsimp only; linarith) hb ?_ ?_ ?_ ?_ ?_ ?_
    · exact ⟨_, hm1 (-(T.R + T.r)) 0 _ (hax _ hRr).2.1 rfl, by dsimp only; ring⟩
    · exact ⟨_, hm1 (T.R + T.r) 0 _ (hax _ hRr).1 rfl, by dsimp only⟩
    · exact ⟨_, hm1 0 (-(T.R + T.r)) _ (hax _ hRr).2.2.2 rfl, by dsimp only; ring⟩
    · exact ⟨_, hm1 0 (T.R + T.r) _ (hax _ hRr).2.2.1 rfl, by dsimp only⟩
    · exact ⟨_, hm2 (T.center.z - T.r) (by ring), rfl⟩
    · exact ⟨_, hm2 (T.center.z + T.r) (by ring), rfl⟩
  · refine smallestSphere_of hRr (fun p hp => ?_) ⟨_, hm1 (T.R + T.r) 0 _ (hax _ hRr).1 rfl, by dsimp only; ring⟩
    have k := hd p hp
    rw [hin] at hp
    have e := ha (p.x - T.center.x) (p.y - T.center.y)
    nlinarith

/-- The condition `r ≤ R` is needed: with `R = 0` the points inside are those of a ball, but `Volume` is 0. -/
theorem torus_spindle_wrong : ∃ T : Torus, 0 ≤ T.r ∧ 0 ≤ T.R ∧ T.volume = 0 ∧ vol {p | T.isInside p = true} ≠ 0 := by
  refine ⟨⟨0, 1, ⟨0, 0, 0⟩, 20, 12⟩, by norm_num, le_refl _, by simp [Torus.volume], ?_⟩
  have : {p | (Torus.mk 0 1 ⟨0, 0, 0⟩ 20 12).isInside p = true} = {p | eucl ⟨0, 0, 0⟩ p ≤ 1} := by
    ext p
    rw [Set.mem_setOf_eq, torus_inside _ (by norm_num), Set.mem_setOf_eq, eucl, Real.sqrt_le_iff, and_iff_right zero_le_one]
    simp only [sub_zero, axisDist]
    rw [Real.sq_sqrt (by nlinarith [mul_self_nonneg p.x, mul_self_nonneg p.y])]
    constructor <;> intro h <;> nlinarith
  rw [this, B3.vol_ball _ _ zero_le_one]
  have := Real.pi_pos
  simp only [ne_eq, ENNReal.ofReal_eq_zero, not_le]
  positivity

/-! ## Bodies given by boundary functions -/

theorem bounded_inside (b : Bounded) (p : V3 ℝ) : b.isInside p = true ↔
    (b.x1 < p.x ∧ p.x < b.x2) ∧ (b.y1 p.x < p.y ∧ p.y < b.y2 p.x) ∧ b.z1 p.x p.y < p.z ∧ p.z < b.z2 p.x p.y := by
  rw [Bounded.isInside]
  by_cases h1 : b.x1 < p.x ∧ p.x < b.x2
  · rw [if_pos h1]
    by_cases h2 : b.y1 p.x < p.y ∧ p.y < b.y2 p.x
    · rw [if_pos h2]
      by_cases h3 : b.z1 p.x p.y < p.z ∧ p.z < b.z2 p.x p.y
      · rw [if_pos h3]; simp [h1, h2, h3]
      · rw [if_neg h3]; simp only [Bool.false_eq_true, false_iff]; rintro ⟨-, -, h⟩; exact h3 h
    · rw [if_neg h2]; simp only [Bool.false_eq_true, false_iff]; rintro ⟨-, h, -⟩; exact h2 h
  · rw [if_neg h1]; simp only [Bool.false_eq_true, false_iff]; rintro ⟨h, -⟩; exact h1 h

/-- The bounding box contains the body if the bounds in `y` are monotonic, as its comment assumes, and those in `z` are constant. -/
theorem bounded_box_partial (b : Bounded) (m1 : MonotoneOn b.y1 (Set.Icc b.x1 b.x2) ∨ AntitoneOn b.y1 (Set.Icc b.x1 b.x2))
    (m2 : MonotoneOn b.y2 (Set.Icc b.x1 b.x2) ∨ AntitoneOn b.y2 (Set.Icc b.x1 b.x2)) (za zb : ℝ) (h1 : ∀ x y, b.z1 x y = za) (h2 : ∀ x y, b.z2 x y = zb)
    (p : V3 ℝ) (hp : b.isInside p = true) : p ∈ b.box.pts := by
  rw [bounded_inside] at hp
  obtain ⟨⟨hx1, hx2⟩, ⟨hy1, hy2⟩, hz1, hz2⟩ := hp
  have hl : b.x1 ∈ Set.Icc b.x1 b.x2 := ⟨le_refl _, by linarith⟩
  have hu : b.x2 ∈ Set.Icc b.x1 b.x2 := ⟨by linarith, le_refl _⟩
  have hm : p.x ∈ Set.Icc b.x1 b.x2 := ⟨hx1.le, hx2.le⟩
  have k1 : b.minY ≤ b.y1 p.x := by
    rcases m1 with m | m
    · exact (min_le_left _ _).trans (m hl hm hx1.le)
    · exact (min_le_right _ _).trans (m hm hu hx2.le)
  have k2 : b.y2 p.x ≤ b.maxY := by
    rcases m2 with m | m
    · exact (m hm hu hx2.le).trans (le_max_right _ _)
    · exact (m hl hm hx1.le).trans (le_max_left _ _)
  have k3 : b.minZ = za := by rw [Bounded.minZ, h1, h1, h1]; simp
  have k4 : b.maxZ = zb := by rw [Bounded.maxZ, h2, h2, h2]; simp
  rw [h1] at hz1
  rw [h2] at hz2
  have e : b.box = ⟨⟨b.x1, b.minY, b.minZ⟩, ⟨b.x2, b.maxY, b.maxZ⟩⟩ :=
    B3.normalize_of_ordered ⟨by dsimp only; linarith, by dsimp only; linarith, by dsimp only; linarith⟩
  rw [e]
  exact ⟨hx1.le, hx2.le, by dsimp only; linarith, by dsimp only; linarith, by dsimp only; linarith, by dsimp only; linarith⟩

/-- The slab between `z = x + y` and `z = x + y + 1` over the unit square, with monotonic bounds. -/
noncomputable def slab : Bounded := ⟨0, 1, fun _ => 0, fun _ => 1, fun x y => x + y, fun x y => x + y + 1⟩

/-- The bounding box of a body whose bounds are all monotonic (even linear) need not contain it. -/
theorem bounded_box_wrong : (∀ x y x' y', x ≤ x' → y ≤ y' → slab.z1 x y ≤ slab.z1 x' y' ∧ slab.z2 x y ≤ slab.z2 x' y') ∧
    ∃ p, slab.isInside p = true ∧ p ∉ slab.box.pts := by
  refine ⟨fun x y x' y' h1 h2 => ⟨by simp only [slab]; linarith, by simp only [slab]; linarith⟩, ⟨1 / 10, 1 / 10, 3 / 10⟩, ?_, ?_⟩
  · rw [bounded_inside]; simp only [slab]; norm_num
  · have e : slab.box = ⟨⟨0, 0, 1 / 2⟩, ⟨1, 1, 5 / 2⟩⟩ := by
      have : slab.box = Box.ofCorners ⟨0, 0, 1 / 2⟩ ⟨1, 1, 5 / 2⟩ := by
        simp only [Bounded.box, Bounded.minY, Bounded.maxY, Bounded.minZ, Bounded.maxZ, Bounded.midX, Bounded.midY, slab]
        norm_num
      rw [this]; exact B3.normalize_of_ordered ⟨by norm_num, by norm_num, by norm_num⟩
    rw [e]
    rintro ⟨-, -, -, -, h, -⟩
    norm_num at h

/-- A body between two parabolas in `y`. -/
noncomputable def tent : Bounded :=
  ⟨0, 1, fun x => 8 * (x - 1 / 2) ^ 2 - 2, fun x => 8 * (x - 1 / 2) ^ 2 - 1, fun _ _ => 0, fun _ _ => 1⟩

/-- Without monotonic bounds neither the box nor the sphere contains the body, even with constant bounds in `z`. -/
theorem bounded_sphere_wrong : ∃ b : Bounded, ∃ s p, (∀ x y, b.z1 x y = 0 ∧ b.z2 x y = 1) ∧ b.sphere = .ret s ∧ b.isInside p = true ∧ p ∉ s.pts ∧ p ∉ b.box.pts := by
  have e : tent.box = ⟨⟨0, 0, 0⟩, ⟨1, 1, 1⟩⟩ := by
    have : tent.box = Box.ofCorners ⟨0, 0, 0⟩ ⟨1, 1, 1⟩ := by
      simp only [Bounded.box, Bounded.minY, Bounded.maxY, Bounded.minZ, Bounded.maxZ, Bounded.midX, Bounded.midY, tent]
      norm_num
    rw [this]; exact B3.normalize_of_ordered ⟨by norm_num, by norm_num, by norm_num⟩
  have hc : tent.getCenter = ⟨1 / 2, -(3 / 2), 1 / 2⟩ := by
    simp only [Bounded.getCenter, Bounded.midX, Bounded.midY, tent]
    norm_num
  have hs : tent.sphere = .ret ⟨⟨1 / 2, -(3 / 2), 1 / 2⟩, 1 / 2 * Real.sqrt 3⟩ := by
    rw [Bounded.sphere, e, hc, (B3.sph_new _ _).2.1 (by positivity)]
    norm_num
  refine ⟨tent, _, ⟨1 / 20, -(3 / 10), 1 / 2⟩, fun x y => ⟨rfl, rfl⟩, hs, ?_, ?_, ?_⟩
  · rw [bounded_inside]; simp only [tent]; norm_num
  · simp only [Sph.pts, Set.mem_setOf_eq, not_le]
    rw [eucl]
    refine Real.lt_sqrt_of_sq_lt ?_
    rw [mul_pow, Real.sq_sqrt (by norm_num)]
    norm_num
  · rw [e]
    rintro ⟨-, -, h, -⟩
    norm_num at h

/-! ## Composed bodies and the list of surfaces -/

theorem composed_spec (l : List (Option (V3 ℝ → Bool))) (p : V3 ℝ) : composedInside l p = true ↔ ∃ f, some f ∈ l ∧ f p = true := by
  induction l with
  | nil => simp [composedInside]
  | cons a l ih =>
    cases a with
    | none => rw [composedInside, ih]; simp
    | some f =>
      rw [composedInside]
      by_cases h : f p = true
      · rw [if_pos h]; simp only [true_iff]; exact ⟨f, by simp, h⟩
      · rw [if_neg h, ih]
        constructor
        · rintro ⟨g, hg, e⟩; exact ⟨g, List.mem_cons_of_mem _ hg, e⟩
        · rintro ⟨g, hg, e⟩
          rcases List.mem_cons.mp hg with k | k
          · injection k with k; subst k; exact absurd e h
          · exact ⟨g, k, e⟩

theorem getSurface_spec {α : Type} (l : List α) (i : Int) :
    ((i < 0 ∨ (l.length : Int) ≤ i) → getSurface l i = .exn (.mml "IndexError")) ∧
    ∀ k : ℕ, (hk : k < l.length) → getSurface l k = .ret l[k] := by
  refine ⟨fun h => by rw [getSurface, if_pos h], fun k hk => ?_⟩
  have : ¬((k : Int) < 0 ∨ (l.length : Int) ≤ (k : Int)) := by omega
  rw [getSurface, if_neg this, Int.toNat_natCast, Outcome.index]
  simp [hk]

/-! ## Concrete cases -/

example : vol {p | (Cube.mk 2 ⟨1, 2, 3⟩).isInside p = true} = ENNReal.ofReal 8 := by
  rw [(cube_describes ⟨2, ⟨1, 2, 3⟩⟩ (by norm_num)).1.vol_eq]; congr 1; simp only [Cube.volume]; norm_num
example : vol {p | (Pyr.mk 3 2 ⟨0, 0, 0⟩).isInside p = .ret true} = ENNReal.ofReal 6 := by
  rw [(pyr_describes ⟨3, 2, ⟨0, 0, 0⟩⟩ (by norm_num) (by norm_num)).vol_eq]; congr 1; simp only [Pyr.volume]; norm_num
example : vol {p | (Torus.mk 2 1 ⟨0, 0, 0⟩ 20 12).isInside p = true} = ENNReal.ofReal (4 * Real.pi ^ 2) := by
  rw [(torus_describes ⟨2, 1, ⟨0, 0, 0⟩, 20, 12⟩ (by norm_num) (by norm_num)).vol_eq]; congr 1; simp only [Torus.volume]; ring
example : (Cyl.mk 1 2 ⟨0, 0, 0⟩ 20).isInside ⟨0, 0, 1⟩ = true := by rw [cyl_inside]; norm_num
example : (Ball.mk 1 ⟨0, 0, 0⟩ 16 20).isInside ⟨0, 0, 1⟩ = true := by rw [Ball.isInside, decide_eq_true_iff]; norm_num
/-- A body that meets the conditions of `bounded_box_partial`: the wedge under `y = x`. -/
example : (Bounded.mk 0 1 (fun _ => 0) (fun x => x) (fun _ _ => 0) (fun _ _ => 1)).isInside ⟨1 / 2, 1 / 4, 1 / 2⟩ = true := by
  rw [bounded_inside]; norm_num

end Verif.Geom.Bod
