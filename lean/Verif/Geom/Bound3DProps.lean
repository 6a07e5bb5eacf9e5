import Verif.Geom.Bound3D
import Verif.Geom.Lines3DProps
import Verif.CompGeo.BoxProps
import Mathlib.MeasureTheory.Measure.Lebesgue.VolumeOfBalls

/-!
# Bounding spheres and boxes in space
-/

set_option autoImplicit false

namespace Verif.Geom.B3

open L3 (pdist eucl)
open Verif.CompGeo.CB (clamp clamp_spec)

/-! ## Specification -/

/-- The volume of a set of points of space: its Lebesgue measure. -/
noncomputable def vol (S : Set (V3 ℝ)) : ENNReal := MeasureTheory.volume {p : Fin 3 → ℝ | (⟨p 0, p 1, p 2⟩ : V3 ℝ) ∈ S}

/-- The points of a sphere with its interior. -/
def Sph.pts (s : Sph) : Set (V3 ℝ) := {p | eucl s.center p ≤ s.radius}

/-- The points of a box. -/
def Box.pts (b : Box) : Set (V3 ℝ) := {p | b.lo.x ≤ p.x ∧ p.x ≤ b.hi.x ∧ b.lo.y ≤ p.y ∧ p.y ≤ b.hi.y ∧ b.lo.z ≤ p.z ∧ p.z ≤ b.hi.z}

/-- The corners are in order. -/
def Box.Ordered (b : Box) : Prop := b.lo.x ≤ b.hi.x ∧ b.lo.y ≤ b.hi.y ∧ b.lo.z ≤ b.hi.z

/-! ## Bounding spheres -/

theorem ball_eq (c : V3 ℝ) (r : ℝ) (hr : 0 ≤ r) :
    {p : Fin 3 → ℝ | eucl c ⟨p 0, p 1, p 2⟩ ≤ r} = (WithLp.toLp 2) ⁻¹' Metric.closedBall (WithLp.toLp 2 (![c.x, c.y, c.z] : Fin 3 → ℝ) : EuclideanSpace ℝ (Fin 3)) r := by
  ext p
  simp only [Set.mem_setOf_eq, Set.mem_preimage, Metric.mem_closedBall, EuclideanSpace.dist_eq, Fin.sum_univ_three, Real.dist_eq, sq_abs]
  rw [eucl]
  have : (c.x - p 0) ^ 2 + (c.y - p 1) ^ 2 + (c.z - p 2) ^ 2 =
      (p 0 - (![c.x, c.y, c.z] : Fin 3 → ℝ) 0) ^ 2 + (p 1 - (![c.x, c.y, c.z] : Fin 3 → ℝ) 1) ^ 2 + (p 2 - (![c.x, c.y, c.z] : Fin 3 → ℝ) 2) ^ 2 := by
    simp; ring
  rw [this]

/-- The Lebesgue measure of a ball. -/
theorem vol_ball (c : V3 ℝ) (r : ℝ) (hr : 0 ≤ r) : vol {p | eucl c p ≤ r} = ENNReal.ofReal (4 / 3 * Real.pi * r * r * r) := by
  have hpi := Real.pi_pos
  rw [vol]
  simp only [Set.mem_setOf_eq]
  rw [ball_eq c r hr, (PiLp.volume_preserving_toLp (Fin 3)).measure_preimage Metric.isClosed_closedBall.measurableSet.nullMeasurableSet,
    EuclideanSpace.volume_closedBall_fin_three, ← ENNReal.ofReal_pow hr, ← ENNReal.ofReal_mul (by positivity)]
  congr 1; ring

/-- The constructor refuses negative radii, so all spheres a program can build have a radius `≥ 0`. -/
theorem sph_new (c : V3 ℝ) (r : ℝ) :
    (r < 0 → Sph.new c r = .exn (.mml "ArgumentError")) ∧ (0 ≤ r → Sph.new c r = .ret ⟨c, r⟩) ∧ ∀ s, Sph.new c r = .ret s → 0 ≤ s.radius := by
  rw [Sph.new]
  refine ⟨fun h => by rw [if_pos h], fun h => by rw [if_neg (not_lt.mpr h)], fun s => ?_⟩
  by_cases h : r < 0
  · rw [if_pos h]; intro e; cases e
  · rw [if_neg h]; intro e; cases e; exact not_lt.mp h

/-- `Contains` is membership; `Volume` is the Lebesgue measure. -/
theorem sph_contains (s : Sph) (p : V3 ℝ) : (s.contains p = true ↔ p ∈ s.pts) ∧ (0 ≤ s.radius → vol s.pts = ENNReal.ofReal s.volume) := by
  rw [Sph.contains, decide_eq_true_iff, L3.pdist_eq]
  exact ⟨Iff.rfl, fun h => vol_ball s.center s.radius h⟩

theorem eucl_triangle (a b c : V3 ℝ) : eucl a c ≤ eucl a b + eucl b c := by
  have h1 := L3.eucl_sq a b
  have h2 := L3.eucl_sq b c
  have h3 := L3.eucl_sq a c
  have n1 := L3.eucl_nonneg a b
  have n2 := L3.eucl_nonneg b c
  refine (sq_le_sq₀ (L3.eucl_nonneg _ _) (by positivity)).mp ?_
  have hcs := L3.cauchy (a.x - b.x) (a.y - b.y) (a.z - b.z) (b.x - c.x) (b.y - c.y) (b.z - c.z)
  rw [← h1, ← h2] at hcs
  have hprod : (a.x - b.x) * (b.x - c.x) + (a.y - b.y) * (b.y - c.y) + (a.z - b.z) * (b.z - c.z) ≤ eucl a b * eucl b c := by
    refine le_of_sq_le_sq ?_ (by positivity)
    rw [mul_pow]; linarith [neg_sq ((a.x - b.x) * (b.x - c.x) + (a.y - b.y) * (b.y - c.y) + (a.z - b.z) * (b.z - c.z))]
  rw [h3, add_sq, h1, h2]
  nlinarith

/-- `Intersects` says whether the spheres have a common point. -/
theorem sph_intersects (s o : Sph) (hs : 0 ≤ s.radius) (ho : 0 ≤ o.radius) : s.intersects o = true ↔ (s.pts ∩ o.pts).Nonempty := by
  rw [Sph.intersects, decide_eq_true_iff, L3.pdist_eq]
  constructor
  · intro h
    by_cases h0 : s.radius + o.radius = 0
    · have e1 : s.radius = 0 := by linarith
      have e2 : o.radius = 0 := by linarith
      rw [h0] at h
      have e : s.center = o.center := L3.eucl_eq_zero.mp (le_antisymm h (L3.eucl_nonneg _ _))
      refine ⟨s.center, ?_, ?_⟩
      · rw [Sph.pts, Set.mem_setOf_eq, L3.eucl_eq_zero.mpr rfl]; exact hs
      · rw [Sph.pts, Set.mem_setOf_eq, e, L3.eucl_eq_zero.mpr rfl]; exact ho
    · have hpos : 0 < s.radius + o.radius := lt_of_le_of_ne (by linarith) (Ne.symm h0)
      set l := s.radius / (s.radius + o.radius) with hl
      have l0 : 0 ≤ l := div_nonneg hs hpos.le
      have l1 : 0 ≤ 1 - l := by rw [hl, sub_nonneg, div_le_one hpos]; linarith
      have k1 : l * (s.radius + o.radius) = s.radius := by rw [hl]; field_simp
      set q : V3 ℝ := ⟨s.center.x + l * (o.center.x - s.center.x), s.center.y + l * (o.center.y - s.center.y), s.center.z + l * (o.center.z - s.center.z)⟩ with hq
      have d1 : eucl s.center q = l * eucl s.center o.center := by
        refine (sq_eq_sq₀ (L3.eucl_nonneg _ _) (mul_nonneg l0 (L3.eucl_nonneg _ _))).mp ?_
        rw [mul_pow, L3.eucl_sq, L3.eucl_sq, hq]; ring
      have d2 : eucl o.center q = (1 - l) * eucl s.center o.center := by
        refine (sq_eq_sq₀ (L3.eucl_nonneg _ _) (mul_nonneg l1 (L3.eucl_nonneg _ _))).mp ?_
        rw [mul_pow, L3.eucl_sq, L3.eucl_sq, hq]; ring
      refine ⟨q, ?_, ?_⟩
      · rw [Sph.pts, Set.mem_setOf_eq, d1]; nlinarith
      · rw [Sph.pts, Set.mem_setOf_eq, d2]; nlinarith
  · rintro ⟨p, h1, h2⟩
    have := eucl_triangle s.center p o.center
    rw [L3.eucl_comm p] at this
    simp only [Sph.pts, Set.mem_setOf_eq] at h1 h2
    linarith

/-- `ExpandToInclude` keeps the centre, and gives the smallest sphere around it with the old points and the new one. -/
theorem sph_expand (s : Sph) (p : V3 ℝ) : (s.expandToInclude p).center = s.center ∧ s.pts ⊆ (s.expandToInclude p).pts ∧ p ∈ (s.expandToInclude p).pts ∧
    ∀ r, s.radius ≤ r → p ∈ (Sph.mk s.center r).pts → (s.expandToInclude p).radius ≤ r := by
  rw [Sph.expandToInclude]
  by_cases h : s.radius < pdist s.center p
  · rw [if_pos h]
    rw [L3.pdist_eq] at *
    exact ⟨rfl, fun q (hq : eucl _ _ ≤ _) => hq.trans h.le, le_refl (eucl _ _), fun r _ hp => hp⟩
  · rw [if_neg h]
    rw [L3.pdist_eq] at h
    exact ⟨rfl, subset_rfl, not_lt.mp h, fun r hr _ => hr⟩

/-- The default sphere is the point at the origin, not the unit sphere its comment announces. -/
theorem sph_default : Sph.default.pts = {⟨0, 0, 0⟩} := by
  ext p
  simp only [Sph.pts, Sph.default, Set.mem_setOf_eq, Set.mem_singleton_iff]
  exact ⟨fun h => (L3.eucl_eq_zero.mp (le_antisymm h (L3.eucl_nonneg _ _))).symm, fun h => by rw [h, L3.eucl_eq_zero.mpr rfl]⟩

/-! ## Boxes -/

theorem swap_eq (a b : ℝ) : swap a b = (min a b, max a b) := by
  rw [swap]
  by_cases h : b < a
  · rw [if_pos h, min_eq_right h.le, max_eq_left h.le]
  · rw [if_neg h, min_eq_left (not_lt.mp h), max_eq_right (not_lt.mp h)]

theorem normalize_eq (b : Box) : normalize b =
    ⟨⟨min b.lo.x b.hi.x, min b.lo.y b.hi.y, min b.lo.z b.hi.z⟩, ⟨max b.lo.x b.hi.x, max b.lo.y b.hi.y, max b.lo.z b.hi.z⟩⟩ := by
  simp only [normalize, swap_eq]

theorem new_of_le {x1 y1 z1 x2 y2 z2 : ℝ} (h1 : x1 ≤ x2) (h2 : y1 ≤ y2) (h3 : z1 ≤ z2) : Box.new x1 y1 z1 x2 y2 z2 = ⟨⟨x1, y1, z1⟩, ⟨x2, y2, z2⟩⟩ := by
  rw [Box.new, normalize_eq]; simp [h1, h2, h3]

theorem normalize_of_ordered {b : Box} (h : b.Ordered) : normalize b = b := by
  obtain ⟨⟨x1, y1, z1⟩, x2, y2, z2⟩ := b
  exact new_of_le h.1 h.2.1 h.2.2

/-- The constructor from two opposite corners: they are put in order, and the result is the smallest box with both points. -/
theorem box_ofCorners (a b : V3 ℝ) : (Box.ofCorners a b).Ordered ∧ a ∈ (Box.ofCorners a b).pts ∧ b ∈ (Box.ofCorners a b).pts ∧
    ∀ o : Box, a ∈ o.pts → b ∈ o.pts → (Box.ofCorners a b).pts ⊆ o.pts := by
  rw [Box.ofCorners, normalize_eq]
  refine ⟨⟨min_le_max, min_le_max, min_le_max⟩, ?_, ?_, ?_⟩
  · exact ⟨min_le_left _ _, le_max_left _ _, min_le_left _ _, le_max_left _ _, min_le_left _ _, le_max_left _ _⟩
  · exact ⟨min_le_right _ _, le_max_right _ _, min_le_right _ _, le_max_right _ _, min_le_right _ _, le_max_right _ _⟩
  · rintro o ⟨a1, a2, a3, a4, a5, a6⟩ ⟨b1, b2, b3, b4, b5, b6⟩ p ⟨p1, p2, p3, p4, p5, p6⟩
    exact ⟨(le_min a1 b1).trans p1, p2.trans (max_le a2 b2), (le_min a3 b3).trans p3, p4.trans (max_le a4 b4), (le_min a5 b5).trans p5,
      p6.trans (max_le a6 b6)⟩

/-- The constructor from coordinates is the one from the corners. -/
theorem box_new (x1 y1 z1 x2 y2 z2 : ℝ) : Box.new x1 y1 z1 x2 y2 z2 = Box.ofCorners ⟨x1, y1, z1⟩ ⟨x2, y2, z2⟩ := rfl

/-- Centre and dimensions of the boxes made from them, for dimensions that are not negative. -/
theorem box_fromCenter (c : V3 ℝ) (w h d : ℝ) (hw : 0 ≤ w) (hh : 0 ≤ h) (hd : 0 ≤ d) :
    (Box.fromCenterAndSize c w h d).center = c ∧ (Box.fromCenterAndSize c w h d).width = w ∧ (Box.fromCenterAndSize c w h d).height = h ∧
    (Box.fromCenterAndSize c w h d).depth = d ∧
    (Box.fromCenterAndHalfExtents c w h d).center = c ∧ (Box.fromCenterAndHalfExtents c w h d).halfExtents = ⟨w, h, d⟩ := by
  rw [Box.fromCenterAndSize, new_of_le (by linarith) (by linarith) (by linarith), Box.fromCenterAndHalfExtents,
    new_of_le (by linarith) (by linarith) (by linarith)]
  simp only [Box.center, Box.width, Box.height, Box.depth, Box.halfExtents]
  refine ⟨?_, by ring, by ring, by ring, ?_, ?_⟩
  · ext <;> simp
  · ext <;> simp
  · ext <;> simp only <;> ring

theorem include1_spec (l : List (V3 ℝ)) : ∀ b : Box, b.Ordered → (l.foldl include1 b).Ordered ∧
    (∀ o : Box, b.pts ⊆ o.pts → (∀ p ∈ l, p ∈ o.pts) → (l.foldl include1 b).pts ⊆ o.pts) ∧ b.pts ⊆ (l.foldl include1 b).pts ∧
    ∀ p ∈ l, p ∈ (l.foldl include1 b).pts := by
  induction l with
  | nil => intro b hb; exact ⟨hb, fun o ho _ => ho, subset_rfl, by simp⟩
  | cons q l ih =>
    intro b hb
    have hlo : b.lo ∈ b.pts := ⟨le_rfl, hb.1, le_rfl, hb.2.1, le_rfl, hb.2.2⟩
    have hhi : b.hi ∈ b.pts := ⟨hb.1, le_rfl, hb.2.1, le_rfl, hb.2.2, le_rfl⟩
    have ho1 : (include1 b q).Ordered :=
      ⟨(min_le_left _ _).trans (hb.1.trans (le_max_left _ _)), (min_le_left _ _).trans (hb.2.1.trans (le_max_left _ _)),
        (min_le_left _ _).trans (hb.2.2.trans (le_max_left _ _))⟩
    have hs : b.pts ⊆ (include1 b q).pts := by
      rintro p ⟨p1, p2, p3, p4, p5, p6⟩
      exact ⟨(min_le_left _ _).trans p1, p2.trans (le_max_left _ _), (min_le_left _ _).trans p3, p4.trans (le_max_left _ _),
        (min_le_left _ _).trans p5, p6.trans (le_max_left _ _)⟩
    have hq : q ∈ (include1 b q).pts :=
      ⟨min_le_right _ _, le_max_right _ _, min_le_right _ _, le_max_right _ _, min_le_right _ _, le_max_right _ _⟩
    obtain ⟨i1, i2, i3, i4⟩ := ih (include1 b q) ho1
    rw [List.foldl_cons]
    refine ⟨i1, fun o ho hl => i2 o ?_ (fun p hp => hl p (List.mem_cons_of_mem _ hp)), hs.trans i3, ?_⟩
    · obtain ⟨a1, a2, a3, a4, a5, a6⟩ := ho hlo
      obtain ⟨c1, c2, c3, c4, c5, c6⟩ := ho hhi
      obtain ⟨b1, b2, b3, b4, b5, b6⟩ := hl q List.mem_cons_self
      rintro p ⟨p1, p2, p3, p4, p5, p6⟩
      exact ⟨(le_min a1 b1).trans p1, p2.trans (max_le c2 b2), (le_min a3 b3).trans p3, p4.trans (max_le c4 b4), (le_min a5 b5).trans p5,
        p6.trans (max_le c6 b6)⟩
    · intro p hp
      rcases List.mem_cons.mp hp with rfl | hp
      · exact i3 hq
      · exact i4 p hp

/-- `FromPoints` refuses an empty list and otherwise returns the smallest box with all the points. -/
theorem box_fromPoints : Box.fromPoints [] = .exn (.mml "GeometryError") ∧ ∀ l : List (V3 ℝ), l ≠ [] → ∃ b, Box.fromPoints l = .ret b ∧ b.Ordered ∧
    (∀ p ∈ l, p ∈ b.pts) ∧ ∀ o : Box, (∀ p ∈ l, p ∈ o.pts) → b.pts ⊆ o.pts := by
  refine ⟨rfl, fun l hl => ?_⟩
  cases l with
  | nil => exact absurd rfl hl
  | cons p l =>
    have hpp : (Box.mk p p).Ordered := ⟨le_rfl, le_rfl, le_rfl⟩
    obtain ⟨i1, i2, i3, i4⟩ := include1_spec l ⟨p, p⟩ hpp
    refine ⟨_, rfl, ?_⟩
    rw [normalize_of_ordered i1]
    refine ⟨i1, ?_, fun o ho => i2 o ?_ (fun q hq => ho q (List.mem_cons_of_mem _ hq))⟩
    · intro q hq
      rcases List.mem_cons.mp hq with rfl | hq
      · exact i3 ⟨le_rfl, le_rfl, le_rfl, le_rfl, le_rfl, le_rfl⟩
      · exact i4 q hq
    · rintro q ⟨q1, q2, q3, q4, q5, q6⟩
      have : q = p := by ext <;> simp only at * <;> linarith
      rw [this]; exact ho p List.mem_cons_self

/-- `Contains`: without tolerance it is membership; with a tolerance, membership of the box enlarged by it; for boxes, inclusion. -/
theorem box_contains (b o : Box) (ho : o.Ordered) (p : V3 ℝ) (eps : ℝ) : (b.contains p 0 = true ↔ p ∈ b.pts) ∧
    (b.contains p eps = true ↔
      p ∈ (Box.mk ⟨b.lo.x - eps, b.lo.y - eps, b.lo.z - eps⟩ ⟨b.hi.x + eps, b.hi.y + eps, b.hi.z + eps⟩).pts) ∧
    (b.containsBox o 0 = true ↔ o.pts ⊆ b.pts) := by
  refine ⟨?_, ?_, ?_⟩
  · rw [Box.contains, decide_eq_true_iff]; simp only [sub_zero, add_zero]; rfl
  · rw [Box.contains, decide_eq_true_iff]; rfl
  · rw [Box.containsBox, decide_eq_true_iff]; simp only [sub_zero, add_zero]
    constructor
    · rintro ⟨h1, h2, h3, h4, h5, h6⟩ q ⟨q1, q2, q3, q4, q5, q6⟩
      exact ⟨h1.trans q1, q2.trans h2, h3.trans q3, q4.trans h4, h5.trans q5, q6.trans h6⟩
    · intro h
      obtain ⟨a1, a2, a3, a4, a5, a6⟩ := h (⟨le_rfl, ho.1, le_rfl, ho.2.1, le_rfl, ho.2.2⟩ : o.lo ∈ o.pts)
      obtain ⟨c1, c2, c3, c4, c5, c6⟩ := h (⟨ho.1, le_rfl, ho.2.1, le_rfl, ho.2.2, le_rfl⟩ : o.hi ∈ o.pts)
      exact ⟨a1, c2, a3, c4, a5, c6⟩

/-- `ClosestPoint` is the nearest point of the box and `DistanceToPoint` its distance. -/
theorem box_closest (b : Box) (hb : b.Ordered) (p : V3 ℝ) : ∃ q, b.closest p = .ret q ∧ q ∈ b.pts ∧ b.dist p = eucl p q ∧
    (∀ r ∈ b.pts, eucl p q ≤ eucl p r) ∧ (p ∈ b.pts → q = p) := by
  obtain ⟨x, hx, x1, x2, x3, x4⟩ := clamp_spec (x := p.x) hb.1
  obtain ⟨y, hy, y1, y2, y3, y4⟩ := clamp_spec (x := p.y) hb.2.1
  obtain ⟨z, hz, z1, z2, z3, z4⟩ := clamp_spec (x := p.z) hb.2.2
  have hmin : ∀ r ∈ b.pts, eucl p ⟨x, y, z⟩ ≤ eucl p r := by
    rintro r ⟨r1, r2, r3, r4, r5, r6⟩
    apply L3.eucl_le_of
    have := x4 r.x r1 r2
    have := y4 r.y r3 r4
    have := z4 r.z r5 r6
    simp only; linarith
  refine ⟨⟨x, y, z⟩, by rw [Box.closest, hx, Outcome.bind_ret, hy, Outcome.bind_ret, hz, Outcome.bind_ret], ⟨x1, x2, y1, y2, z1, z2⟩, ?_, hmin, fun hp => ?_⟩
  · rw [Box.dist, eucl]
    simp only [outside, ← x3, ← y3, ← z3, abs_mul_abs_self]
    congr 1; ring
  · have := hmin p hp
    rw [L3.eucl_eq_zero.mpr (rfl : p = p)] at this
    exact (L3.eucl_eq_zero.mp (le_antisymm this (L3.eucl_nonneg _ _))).symm

/-- `Intersects` says whether there is a common point; if so, `Intersection` is the set of the common points, and otherwise the box of the single point `(0,0,0)`. -/
theorem box_intersection (b o : Box) (hb : b.Ordered) (ho : o.Ordered) : (b.intersects o = true ↔ (b.pts ∩ o.pts).Nonempty) ∧
    ((b.pts ∩ o.pts).Nonempty → (b.intersection o).pts = b.pts ∩ o.pts) ∧ (b.pts ∩ o.pts = ∅ → (b.intersection o).pts = {⟨0, 0, 0⟩}) := by
  have hne : (b.pts ∩ o.pts).Nonempty ↔ max b.lo.x o.lo.x ≤ min b.hi.x o.hi.x ∧ max b.lo.y o.lo.y ≤ min b.hi.y o.hi.y ∧ max b.lo.z o.lo.z ≤ min b.hi.z o.hi.z := by
    constructor
    · rintro ⟨p, ⟨a1, a2, a3, a4, a5, a6⟩, b1, b2, b3, b4, b5, b6⟩
      exact ⟨(max_le a1 b1).trans (le_min a2 b2), (max_le a3 b3).trans (le_min a4 b4), (max_le a5 b5).trans (le_min a6 b6)⟩
    · rintro ⟨h1, h2, h3⟩
      refine ⟨⟨max b.lo.x o.lo.x, max b.lo.y o.lo.y, max b.lo.z o.lo.z⟩, ?_, ?_⟩
      · exact ⟨le_max_left _ _, h1.trans (min_le_left _ _), le_max_left _ _, h2.trans (min_le_left _ _), le_max_left _ _, h3.trans (min_le_left _ _)⟩
      · exact ⟨le_max_right _ _, h1.trans (min_le_right _ _), le_max_right _ _, h2.trans (min_le_right _ _), le_max_right _ _, h3.trans (min_le_right _ _)⟩
  refine ⟨?_, ?_, ?_⟩
  · rw [hne, Box.intersects, decide_eq_true_iff]
    simp only [max_le_iff, le_min_iff]
    have := hb.1; have := hb.2.1; have := hb.2.2; have := ho.1; have := ho.2.1; have := ho.2.2
    tauto
  · intro h
    obtain ⟨h1, h2, h3⟩ := hne.mp h
    rw [Box.intersection, if_neg (by push Not; exact ⟨h1, h2, h3⟩), new_of_le h1 h2 h3]
    ext p
    simp only [Box.pts, Set.mem_inter_iff, Set.mem_setOf_eq, max_le_iff, le_min_iff]
    tauto
  · intro h
    have hn : ¬(b.pts ∩ o.pts).Nonempty := by rw [h]; exact Set.not_nonempty_empty
    rw [hne, not_and_or, not_and_or, not_le, not_le, not_le] at hn
    rw [Box.intersection, if_pos hn, new_of_le le_rfl le_rfl le_rfl]
    ext p
    simp only [Box.pts, Set.mem_setOf_eq, Set.mem_singleton_iff, V3.ext_iff]
    constructor
    · rintro ⟨h1, h2, h3, h4, h5, h6⟩; exact ⟨by linarith, by linarith, by linarith⟩
    · rintro ⟨h1, h2, h3⟩; rw [h1, h2, h3]; exact ⟨le_rfl, le_rfl, le_rfl, le_rfl, le_rfl, le_rfl⟩

/-- The documented "empty box" of disjoint boxes is not empty: it contains the origin, which is in neither of the boxes. -/
theorem box_intersection_wrong : ∃ b o : Box, b.Ordered ∧ o.Ordered ∧ b.intersects o = false ∧ (b.intersection o).contains ⟨0, 0, 0⟩ 0 = true ∧
    b.contains ⟨0, 0, 0⟩ 0 = false ∧ o.contains ⟨0, 0, 0⟩ 0 = false := by
  refine ⟨⟨⟨1, 1, 1⟩, ⟨2, 2, 2⟩⟩, ⟨⟨3, 3, 3⟩, ⟨4, 4, 4⟩⟩, by norm_num [Box.Ordered], by norm_num [Box.Ordered], by norm_num [Box.intersects], ?_,
    by norm_num [Box.contains], by norm_num [Box.contains]⟩
  rw [Box.intersection, if_pos (by norm_num), new_of_le le_rfl le_rfl le_rfl]; norm_num [Box.contains]

/-- `Union` and `ExpandToInclude` are the smallest boxes with the points of both, and keep the corners in order. -/
theorem box_union (b o : Box) (hb : b.Ordered) (ho : o.Ordered) (p : V3 ℝ) :
    ((b.union o).Ordered ∧ b.pts ⊆ (b.union o).pts ∧ o.pts ⊆ (b.union o).pts ∧ ∀ k : Box, b.pts ⊆ k.pts → o.pts ⊆ k.pts → (b.union o).pts ⊆ k.pts) ∧
    ((b.expandToInclude p).Ordered ∧ b.pts ⊆ (b.expandToInclude p).pts ∧ p ∈ (b.expandToInclude p).pts ∧
      ∀ k : Box, b.pts ⊆ k.pts → p ∈ k.pts → (b.expandToInclude p).pts ⊆ k.pts) := by
  have hlo : b.lo ∈ b.pts := ⟨le_rfl, hb.1, le_rfl, hb.2.1, le_rfl, hb.2.2⟩
  have hhi : b.hi ∈ b.pts := ⟨hb.1, le_rfl, hb.2.1, le_rfl, hb.2.2, le_rfl⟩
  have hlo' : o.lo ∈ o.pts := ⟨le_rfl, ho.1, le_rfl, ho.2.1, le_rfl, ho.2.2⟩
  have hhi' : o.hi ∈ o.pts := ⟨ho.1, le_rfl, ho.2.1, le_rfl, ho.2.2, le_rfl⟩
  have u1 : min b.lo.x o.lo.x ≤ max b.hi.x o.hi.x := (min_le_left _ _).trans (hb.1.trans (le_max_left _ _))
  have u2 : min b.lo.y o.lo.y ≤ max b.hi.y o.hi.y := (min_le_left _ _).trans (hb.2.1.trans (le_max_left _ _))
  have u3 : min b.lo.z o.lo.z ≤ max b.hi.z o.hi.z := (min_le_left _ _).trans (hb.2.2.trans (le_max_left _ _))
  refine ⟨?_, ?_⟩
  · rw [Box.union, new_of_le u1 u2 u3]
    refine ⟨⟨u1, u2, u3⟩, ?_, ?_, ?_⟩
    · rintro q ⟨q1, q2, q3, q4, q5, q6⟩
      exact ⟨(min_le_left _ _).trans q1, q2.trans (le_max_left _ _), (min_le_left _ _).trans q3, q4.trans (le_max_left _ _),
        (min_le_left _ _).trans q5, q6.trans (le_max_left _ _)⟩
    · rintro q ⟨q1, q2, q3, q4, q5, q6⟩
      exact ⟨(min_le_right _ _).trans q1, q2.trans (le_max_right _ _), (min_le_right _ _).trans q3, q4.trans (le_max_right _ _),
        (min_le_right _ _).trans q5, q6.trans (le_max_right _ _)⟩
    · intro k h1 h2
      obtain ⟨a1, a2, a3, a4, a5, a6⟩ := h1 hlo
      obtain ⟨b1, b2, b3, b4, b5, b6⟩ := h1 hhi
      obtain ⟨c1, c2, c3, c4, c5, c6⟩ := h2 hlo'
      obtain ⟨d1, d2, d3, d4, d5, d6⟩ := h2 hhi'
      rintro q ⟨q1, q2, q3, q4, q5, q6⟩
      exact ⟨(le_min a1 c1).trans q1, q2.trans (max_le b2 d2), (le_min a3 c3).trans q3, q4.trans (max_le b4 d4), (le_min a5 c5).trans q5,
        q6.trans (max_le b6 d6)⟩
  · obtain ⟨i1, i2, i3, i4⟩ := include1_spec [p] b hb
    exact ⟨i1, i3, i4 p List.mem_cons_self, fun k h1 h2 => i2 k h1 (by simpa using h2)⟩

/-- `Expanded`, as long as the box is not shrunk by more than its size. -/
theorem box_expanded_partial (b : Box) (m : ℝ) (h1 : 0 ≤ b.width + 2 * m) (h2 : 0 ≤ b.height + 2 * m) (h3 : 0 ≤ b.depth + 2 * m) (p : V3 ℝ) :
    p ∈ (b.expanded m).pts ↔ b.lo.x - m ≤ p.x ∧ p.x ≤ b.hi.x + m ∧ b.lo.y - m ≤ p.y ∧ p.y ≤ b.hi.y + m ∧ b.lo.z - m ≤ p.z ∧ p.z ≤ b.hi.z + m := by
  rw [Box.width] at h1
  rw [Box.height] at h2
  rw [Box.depth] at h3
  rw [Box.expanded, new_of_le (by linarith) (by linarith) (by linarith)]; rfl

/-- The unit box shrunk by 1 on all sides is the unit box, and shrunk by 2 a larger box. -/
theorem box_expanded_wrong : (Box.default.expanded (-1)) = Box.default ∧ (Box.default.expanded (-2)) = ⟨⟨-1, -1, -1⟩, ⟨2, 2, 2⟩⟩ := by
  rw [Box.expanded, Box.expanded, Box.new, Box.new, normalize_eq, normalize_eq, Box.default]
  norm_num

/-- `Translated` and `Scaled`. -/
theorem box_moved (b : Box) (hb : b.Ordered) (v : V3 ℝ) (f : ℝ) (p : V3 ℝ) : (V3.add p v ∈ (b.translated v).pts ↔ p ∈ b.pts) ∧
    (f ≠ 0 → (V3.add b.center (V3.scale (V3.sub p b.center) f) ∈ (b.scaled f).pts ↔ p ∈ b.pts)) := by
  have h1 := hb.1
  have h2 := hb.2.1
  have h3 := hb.2.2
  constructor
  · rw [Box.translated, Box.ofCorners, normalize_of_ordered ⟨by simp only [V3.add]; linarith, by simp only [V3.add]; linarith, by simp only [V3.add]; linarith⟩]
    simp only [Box.pts, V3.add, Set.mem_setOf_eq, add_le_add_iff_right]
  · intro hf
    rw [Box.scaled, Box.fromCenterAndHalfExtents]
    rcases lt_or_gt_of_ne hf with hf | hf
    · have e : Box.new (b.center.x - b.halfExtents.x * f) (b.center.y - b.halfExtents.y * f) (b.center.z - b.halfExtents.z * f)
          (b.center.x + b.halfExtents.x * f) (b.center.y + b.halfExtents.y * f) (b.center.z + b.halfExtents.z * f) =
          ⟨⟨b.center.x + b.halfExtents.x * f, b.center.y + b.halfExtents.y * f, b.center.z + b.halfExtents.z * f⟩,
            ⟨b.center.x - b.halfExtents.x * f, b.center.y - b.halfExtents.y * f, b.center.z - b.halfExtents.z * f⟩⟩ := by
        rw [Box.new, normalize_eq]
        simp only [Box.halfExtents, Box.width, Box.height, Box.depth]
        rw [min_eq_right (by nlinarith), min_eq_right (by nlinarith), min_eq_right (by nlinarith),
          max_eq_left (by nlinarith), max_eq_left (by nlinarith), max_eq_left (by nlinarith)]
      rw [e]
      simp only [Box.pts, Set.mem_setOf_eq, V3.add, V3.scale, V3.sub, Box.center, Box.halfExtents, Box.width, Box.height, Box.depth]
      constructor
      · rintro ⟨p1, p2, p3, p4, p5, p6⟩
        refine ⟨?_, ?_, ?_, ?_, ?_, ?_⟩ <;> nlinarith
      · rintro ⟨p1, p2, p3, p4, p5, p6⟩
        refine ⟨?_, ?_, ?_, ?_, ?_, ?_⟩ <;> nlinarith
    · have hx : 0 ≤ b.halfExtents.x * f := by simp only [Box.halfExtents, Box.width]; have : 0 ≤ b.hi.x - b.lo.x := by linarith
                                              positivity
      have hy : 0 ≤ b.halfExtents.y * f := by simp only [Box.halfExtents, Box.height]; have : 0 ≤ b.hi.y - b.lo.y := by linarith
                                              positivity
      have hz : 0 ≤ b.halfExtents.z * f := by simp only [Box.halfExtents, Box.depth]; have : 0 ≤ b.hi.z - b.lo.z := by linarith
                                              positivity
      rw [new_of_le (by linarith) (by linarith) (by linarith)]
      simp only [Box.pts, Set.mem_setOf_eq, V3.add, V3.scale, V3.sub, Box.center, Box.halfExtents, Box.width, Box.height, Box.depth]
      constructor
      · rintro ⟨p1, p2, p3, p4, p5, p6⟩
        refine ⟨?_, ?_, ?_, ?_, ?_, ?_⟩ <;> nlinarith
      · rintro ⟨p1, p2, p3, p4, p5, p6⟩
        refine ⟨?_, ?_, ?_, ?_, ?_, ?_⟩ <;> nlinarith

theorem vol_box (x1 y1 z1 x2 y2 z2 : ℝ) (h1 : x1 ≤ x2) (h2 : y1 ≤ y2) (h3 : z1 ≤ z2) :
    vol (Box.mk ⟨x1, y1, z1⟩ ⟨x2, y2, z2⟩).pts = ENNReal.ofReal ((x2 - x1) * (y2 - y1) * (z2 - z1)) := by
  have e : {p : Fin 3 → ℝ | (⟨p 0, p 1, p 2⟩ : V3 ℝ) ∈ (Box.mk ⟨x1, y1, z1⟩ ⟨x2, y2, z2⟩).pts} = Set.Icc ![x1, y1, z1] ![x2, y2, z2] := by
    ext p
    simp only [Box.pts, Set.mem_setOf_eq, Set.mem_Icc, Pi.le_def, Fin.forall_fin_succ, Fin.forall_fin_zero, and_true]
    simp; tauto
  rw [vol, e, Real.volume_Icc_pi, Fin.prod_univ_three, ENNReal.ofReal_mul (mul_nonneg (by linarith) (by linarith)), ENNReal.ofReal_mul (by linarith)]
  simp

/-- The corner `k`, `0 ≤ k < 8`, takes the upper bound of the coordinate `x`, `y`, `z` if the bit 1, 2, 4 of `k` is set. -/
def Box.cornerOf (b : Box) (i j k : Bool) : V3 ℝ := ⟨if i then b.hi.x else b.lo.x, if j then b.hi.y else b.lo.y, if k then b.hi.z else b.lo.z⟩

/-- `Volume` is the Lebesgue measure, `Diagonal` the distance of opposite corners, `SurfaceArea` twice the sum of the areas of three faces, and `Corners` lists
each of the eight combinations of bounds once. -/
theorem box_measures (b : Box) (hb : b.Ordered) : vol b.pts = ENNReal.ofReal b.volume ∧ b.diagonal = eucl b.lo b.hi ∧
    b.surfaceArea = 2 * (b.hi.x - b.lo.x) * (b.hi.y - b.lo.y) + 2 * (b.hi.y - b.lo.y) * (b.hi.z - b.lo.z) + 2 * (b.hi.z - b.lo.z) * (b.hi.x - b.lo.x) ∧
    b.corners.length = 8 ∧ ∀ p, p ∈ b.corners ↔ ∃ i j k, p = b.cornerOf i j k := by
  refine ⟨vol_box _ _ _ _ _ _ hb.1 hb.2.1 hb.2.2, ?_, ?_, rfl, ?_⟩
  · rw [Box.diagonal, eucl, Box.width, Box.height, Box.depth]; congr 1; ring
  · rw [Box.surfaceArea, Box.width, Box.height, Box.depth]; ring
  · intro p
    simp only [Box.corners, List.mem_cons, List.not_mem_nil, or_false, Bool.exists_bool, Box.cornerOf]
    simp only [Bool.false_eq_true, if_true, if_false]
    tauto

/-- `IsDegenerate` with tolerance `eps`: some dimension is below it; so a box that is not degenerate has a volume of at least `eps³`. -/
theorem box_degenerate (b : Box) {eps : ℝ} (he : 0 < eps) : (b.isDegenerate eps = true ↔ b.hi.x - b.lo.x < eps ∨ b.hi.y - b.lo.y < eps ∨ b.hi.z - b.lo.z < eps) ∧
    (b.isDegenerate eps = false → eps ^ 3 ≤ b.volume) := by
  rw [Box.isDegenerate, decide_eq_true_iff, decide_eq_false_iff_not]
  refine ⟨Iff.rfl, fun h => ?_⟩
  push Not at h
  have h2 : eps * eps ≤ b.width * b.height := mul_le_mul h.1 h.2.1 he.le (he.le.trans h.1)
  have h3 : eps * eps * eps ≤ b.width * b.height * b.depth := mul_le_mul h2 h.2.2 he.le ((mul_pos he he).le.trans h2)
  rw [Box.volume]; linarith [show eps ^ 3 = eps * eps * eps by ring]

/-! ## The hypotheses can be met -/

/-- Two boxes in order that share more than a point, and two spheres that touch. -/
example : (Box.mk ⟨0, 0, 0⟩ ⟨2, 2, 2⟩).Ordered ∧ (Box.mk ⟨1, 1, 1⟩ ⟨3, 3, 3⟩).Ordered ∧
    ((Box.mk ⟨0, 0, 0⟩ ⟨2, 2, 2⟩).pts ∩ (Box.mk ⟨1, 1, 1⟩ ⟨3, 3, 3⟩).pts).Nonempty ∧
    (Sph.mk ⟨0, 0, 0⟩ 1).intersects ⟨⟨3, 0, 0⟩, 2⟩ = true := by
  refine ⟨by norm_num [Box.Ordered], by norm_num [Box.Ordered], ⟨⟨1, 1, 1⟩, by norm_num [Box.pts], by norm_num [Box.pts]⟩, ?_⟩
  rw [sph_intersects _ _ (by norm_num) (by norm_num)]
  refine ⟨⟨1, 0, 0⟩, ?_, ?_⟩
  · simp [Sph.pts, eucl]
  · have : Real.sqrt 4 = 2 := by rw [show (4 : ℝ) = 2 ^ 2 by norm_num]; exact Real.sqrt_sq (by norm_num)
    simp only [Sph.pts, eucl, Set.mem_setOf_eq]; norm_num [this]

end Verif.Geom.B3
