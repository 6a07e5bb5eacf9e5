import Verif.CompGeo.CircleProps
import Mathlib.MeasureTheory.Measure.Lebesgue.Basic

/-!
# C115: axis-parallel boxes in the plane
-/

set_option autoImplicit false

namespace Verif.CompGeo.CB

open Verif.CompGeo.Tri (euclid_nonneg euclid_sq euclid_pos)

/-- The points of a box. -/
def Box.pts (b : Box) : Set Pt := Set.Icc b.lo b.hi

/-- A box whose corners are in order. -/
def Box.Ordered (b : Box) : Prop := b.lo ≤ b.hi

theorem mem_pts (b : Box) (p : Pt) : p ∈ b.pts ↔ (b.lo.1 ≤ p.1 ∧ p.1 ≤ b.hi.1) ∧ b.lo.2 ≤ p.2 ∧ p.2 ≤ b.hi.2 := by
  constructor
  · rintro ⟨⟨h1, h2⟩, h3, h4⟩
    exact ⟨⟨h1, h3⟩, h2, h4⟩
  · rintro ⟨⟨h1, h3⟩, h2, h4⟩
    exact ⟨⟨h1, h2⟩, h3, h4⟩

/-- `Normalize` puts the corners in order. -/
theorem normalize_eq (b : Box) : normalize b = ⟨(min b.lo.1 b.hi.1, min b.lo.2 b.hi.2), (max b.lo.1 b.hi.1, max b.lo.2 b.hi.2)⟩ := by
  obtain ⟨⟨x1, y1⟩, x2, y2⟩ := b
  simp only [normalize, swapX, swapY]
  by_cases h1 : x2 < x1 <;> by_cases h2 : y2 < y1 <;> simp only [h1, h2, if_true, if_false]
  · rw [min_eq_right h1.le, min_eq_right h2.le, max_eq_left h1.le, max_eq_left h2.le]
  · rw [min_eq_right h1.le, min_eq_left (not_lt.1 h2), max_eq_left h1.le, max_eq_right (not_lt.1 h2)]
  · rw [min_eq_left (not_lt.1 h1), min_eq_right h2.le, max_eq_right (not_lt.1 h1), max_eq_left h2.le]
  · rw [min_eq_left (not_lt.1 h1), min_eq_left (not_lt.1 h2), max_eq_right (not_lt.1 h1), max_eq_right (not_lt.1 h2)]

theorem new_of_le {a b c d : ℝ} (h1 : a ≤ c) (h2 : b ≤ d) : Box.new a b c d = ⟨(a, b), (c, d)⟩ := by
  rw [Box.new, normalize_eq]
  simp [h1, h2]

/-- **C115.**  The constructors accept any two opposite corners and put them in order. -/
theorem box_new (a b c d : ℝ) : (Box.new a b c d).Ordered ∧ (Box.new a b c d).lo = (min a c, min b d) ∧ (Box.new a b c d).hi = (max a c, max b d) := by
  rw [Box.new, normalize_eq]
  exact ⟨⟨min_le_max, min_le_max⟩, rfl, rfl⟩

/-- **C115.**  Centre and dimensions of the boxes made from them, for dimensions that are not negative. -/
theorem box_fromCenter (c : Pt) (w h : ℝ) (hw : 0 ≤ w) (hh : 0 ≤ h) :
    (Box.fromCenterAndSize c w h).center = c ∧ (Box.fromCenterAndSize c w h).width = w ∧ (Box.fromCenterAndSize c w h).height = h ∧
    (Box.fromCenterAndHalfExtents c w h).center = c ∧ (Box.fromCenterAndHalfExtents c w h).halfExtents = (w, h) := by
  rw [Box.fromCenterAndSize, new_of_le (by linarith) (by linarith), Box.fromCenterAndHalfExtents, new_of_le (by linarith) (by linarith)]
  refine ⟨?_, ?_, ?_, ?_, ?_⟩
  · ext <;> simp [Box.center]
  · simp [Box.width]
  · simp [Box.height]
  · ext <;> simp [Box.center]
  · ext <;> simp [Box.halfExtents, Box.width, Box.height] <;> ring

theorem include1_spec (l : List Pt) : ∀ b : Box, b.lo ≤ b.hi → (l.foldl include1 b).lo ≤ (l.foldl include1 b).hi ∧
    (∀ o : Box, b.pts ⊆ o.pts → (∀ p ∈ l, p ∈ o.pts) → (l.foldl include1 b).pts ⊆ o.pts) ∧ b.pts ⊆ (l.foldl include1 b).pts ∧
    ∀ p ∈ l, p ∈ (l.foldl include1 b).pts := by
  induction l with
  | nil => intro b hb; exact ⟨hb, fun o ho _ => ho, subset_rfl, by simp⟩
  | cons q l ih =>
    intro b hb
    have hb1 : (include1 b q).lo ≤ (include1 b q).hi :=
      ⟨(min_le_left _ _).trans (hb.1.trans (le_max_left _ _)), (min_le_left _ _).trans (hb.2.trans (le_max_left _ _))⟩
    obtain ⟨h1, h2, h3, h4⟩ := ih (include1 b q) hb1
    have hq : q ∈ (include1 b q).pts := (mem_pts _ _).2 ⟨⟨min_le_right _ _, le_max_right _ _⟩, min_le_right _ _, le_max_right _ _⟩
    have hbs : b.pts ⊆ (include1 b q).pts := by
      intro x hx
      rw [mem_pts] at hx ⊢
      exact ⟨⟨(min_le_left _ _).trans hx.1.1, hx.1.2.trans (le_max_left _ _)⟩, (min_le_left _ _).trans hx.2.1, hx.2.2.trans (le_max_left _ _)⟩
    refine ⟨h1, ?_, hbs.trans h3, ?_⟩
    · intro o ho hl
      refine h2 o ?_ fun p hp => hl p (List.mem_cons_of_mem _ hp)
      have hlo : b.lo ∈ o.pts := ho ⟨le_rfl, hb⟩
      have hhi : b.hi ∈ o.pts := ho ⟨hb, le_rfl⟩
      have hqo := hl q List.mem_cons_self
      rw [mem_pts] at hlo hhi hqo
      intro x hx
      rw [mem_pts] at hx ⊢
      simp only [include1] at hx
      exact ⟨⟨(le_min hlo.1.1 hqo.1.1).trans hx.1.1, hx.1.2.trans (max_le hhi.1.2 hqo.1.2)⟩,
        (le_min hlo.2.1 hqo.2.1).trans hx.2.1, hx.2.2.trans (max_le hhi.2.2 hqo.2.2)⟩
    · intro p hp
      rcases List.mem_cons.1 hp with rfl | hp
      · exact h3 hq
      · exact h4 p hp

/-- **C115.**  `FromPoints` refuses an empty set of points; otherwise it returns the smallest box with all the points. -/
theorem box_fromPoints : Box.fromPoints [] = .exn (.mml "GeometryError") ∧ ∀ l : List Pt, l ≠ [] → ∃ b, Box.fromPoints l = .ret b ∧ b.Ordered ∧
    (∀ p ∈ l, p ∈ b.pts) ∧ ∀ o : Box, (∀ p ∈ l, p ∈ o.pts) → b.pts ⊆ o.pts := by
  refine ⟨rfl, fun l hl => ?_⟩
  cases l with
  | nil => exact absurd rfl hl
  | cons p l =>
    obtain ⟨h1, h2, h3, h4⟩ := include1_spec l ⟨p, p⟩ le_rfl
    have hn : normalize (l.foldl include1 ⟨p, p⟩) = l.foldl include1 ⟨p, p⟩ := by
      rw [normalize_eq, min_eq_left h1.1, min_eq_left h1.2, max_eq_right h1.1, max_eq_right h1.2]
    have hp : p ∈ (⟨p, p⟩ : Box).pts := ⟨le_rfl, le_rfl⟩
    refine ⟨_, by rw [Box.fromPoints, hn], h1, ?_, ?_⟩
    · intro q hq
      rcases List.mem_cons.1 hq with rfl | hq
      · exact h3 hp
      · exact h4 q hq
    · intro o ho
      refine h2 o ?_ fun q hq => ho q (List.mem_cons_of_mem _ hq)
      rintro x ⟨hx1, hx2⟩
      rw [le_antisymm hx2 hx1]
      exact ho p List.mem_cons_self

/-- **C115.**  `Contains` for points, and for boxes. -/
theorem box_contains (b o : Box) (ho : o.Ordered) (p : Pt) (eps : ℝ) : (b.contains p 0 = true ↔ p ∈ b.pts) ∧
    (b.contains p eps = true ↔ p ∈ Set.Icc (b.lo.1 - eps, b.lo.2 - eps) (b.hi.1 + eps, b.hi.2 + eps)) ∧
    (b.containsBox o 0 = true ↔ o.pts ⊆ b.pts) := by
  refine ⟨?_, ?_, ?_⟩
  · rw [mem_pts]; simp [Box.contains, and_assoc]
  · simp only [Box.contains, Bool.and_eq_true, decide_eq_true_eq]
    constructor
    · rintro ⟨⟨⟨h1, h2⟩, h3⟩, h4⟩
      exact ⟨⟨h1, h3⟩, h2, h4⟩
    · rintro ⟨⟨h1, h3⟩, h2, h4⟩
      exact ⟨⟨⟨h1, h2⟩, h3⟩, h4⟩
  · simp only [Box.containsBox, Bool.and_eq_true, decide_eq_true_eq, sub_zero, add_zero]
    rw [Box.pts, Box.pts, Set.Icc_subset_Icc_iff ho]
    constructor
    · rintro ⟨⟨⟨h1, h2⟩, h3⟩, h4⟩
      exact ⟨⟨h1, h3⟩, h2, h4⟩
    · rintro ⟨⟨h1, h3⟩, h2, h4⟩
      exact ⟨⟨⟨h1, h2⟩, h3⟩, h4⟩

theorem clamp_spec {x lo hi : ℝ} (h : lo ≤ hi) : ∃ y, clamp x lo hi = .ret y ∧ lo ≤ y ∧ y ≤ hi ∧ |x - y| = max (max (lo - x) 0) (x - hi) ∧
    ∀ z, lo ≤ z → z ≤ hi → (x - y) ^ 2 ≤ (x - z) ^ 2 := by
  rw [clamp, if_neg (not_lt.2 h)]
  by_cases h1 : x < lo
  · rw [if_pos h1]
    refine ⟨lo, rfl, le_rfl, h, ?_, fun z hz _ => by nlinarith⟩
    rw [abs_of_neg (by linarith), max_eq_left (by linarith : (0 : ℝ) ≤ lo - x), max_eq_left (by linarith)]; ring
  · rw [if_neg h1]
    by_cases h2 : hi < x
    · rw [if_pos h2]
      refine ⟨hi, rfl, h, le_rfl, ?_, fun z _ hz => by nlinarith⟩
      rw [abs_of_pos (by linarith), max_eq_right (by linarith : lo - x ≤ 0), max_eq_right (by linarith)]
    · rw [if_neg h2]
      refine ⟨x, rfl, not_lt.1 h1, not_lt.1 h2, ?_, fun z _ _ => by rw [sub_self]; nlinarith [sq_nonneg (x - z)]⟩
      rw [sub_self, abs_zero, max_eq_right (by linarith : lo - x ≤ 0), max_eq_left (by linarith)]

/-- **C115.**  `ClosestPoint` is the point of the box nearest to a point, at distance `DistanceToPoint`; a point inside is its own nearest point. -/
theorem box_closest (b : Box) (hb : b.Ordered) (p : Pt) : ∃ x, b.closest p = .ret x ∧ x ∈ b.pts ∧ b.dist p = euclid p x ∧
    (∀ y ∈ b.pts, euclid p x ≤ euclid p y) ∧ (p ∈ b.pts → x = p) := by
  obtain ⟨x, hx, x1, x2, x3, x4⟩ := clamp_spec (x := p.1) hb.1
  obtain ⟨y, hy, y1, y2, y3, y4⟩ := clamp_spec (x := p.2) hb.2
  have hmin : ∀ z ∈ b.pts, euclid p (x, y) ≤ euclid p z := by
    intro z hz
    rw [mem_pts] at hz
    rw [euclid, euclid]
    exact Real.sqrt_le_sqrt (add_le_add (x4 _ hz.1.1 hz.1.2) (y4 _ hz.2.1 hz.2.2))
  refine ⟨(x, y), by rw [Box.closest, hx, Outcome.bind_ret, hy, Outcome.bind_ret], (mem_pts _ _).2 ⟨⟨x1, x2⟩, y1, y2⟩, ?_, hmin, ?_⟩
  · rw [Box.dist, ← x3, ← y3, euclid, ← pow_two, ← pow_two, sq_abs, sq_abs]
  · intro hp
    have h := hmin p hp
    have h0 : euclid p p = 0 := by rw [euclid]; simp
    rw [h0] at h
    by_contra hne
    exact absurd (euclid_pos (Ne.symm hne)) (not_lt.2 h)

/-- **C115.**  `Intersects` says whether two boxes have a common point; `Intersection` is then the set of common points, and otherwise the box that
consists of the origin. -/
theorem box_intersection (b o : Box) (hb : b.Ordered) (ho : o.Ordered) : (b.intersects o = true ↔ (b.pts ∩ o.pts).Nonempty) ∧
    ((b.pts ∩ o.pts).Nonempty → (b.intersection o).pts = b.pts ∩ o.pts) ∧ (b.pts ∩ o.pts = ∅ → b.intersection o = ⟨(0, 0), (0, 0)⟩) := by
  have hmem : ∀ x, x ∈ b.pts ∩ o.pts ↔ (max b.lo.1 o.lo.1 ≤ x.1 ∧ x.1 ≤ min b.hi.1 o.hi.1) ∧ max b.lo.2 o.lo.2 ≤ x.2 ∧ x.2 ≤ min b.hi.2 o.hi.2 := by
    intro x
    rw [Set.mem_inter_iff, mem_pts, mem_pts, max_le_iff, le_min_iff, max_le_iff, le_min_iff]
    tauto
  have hne : (b.pts ∩ o.pts).Nonempty ↔ max b.lo.1 o.lo.1 ≤ min b.hi.1 o.hi.1 ∧ max b.lo.2 o.lo.2 ≤ min b.hi.2 o.hi.2 := by
    constructor
    · rintro ⟨x, hx⟩
      rw [hmem] at hx
      exact ⟨hx.1.1.trans hx.1.2, hx.2.1.trans hx.2.2⟩
    · rintro ⟨h1, h2⟩
      exact ⟨(max b.lo.1 o.lo.1, max b.lo.2 o.lo.2), (hmem _).2 ⟨⟨le_rfl, h1⟩, le_rfl, h2⟩⟩
  refine ⟨?_, ?_, ?_⟩
  · rw [hne]
    simp only [Box.intersects, Bool.and_eq_true, decide_eq_true_eq, max_le_iff, le_min_iff]
    have h1 := hb.1
    have h2 := hb.2
    have h3 := ho.1
    have h4 := ho.2
    tauto
  · intro h
    obtain ⟨h1, h2⟩ := hne.1 h
    rw [Box.intersection, if_neg (by rintro (h | h) <;> linarith), new_of_le h1 h2]
    ext x
    rw [hmem, mem_pts]
  · intro h
    rw [Box.intersection, if_pos, new_of_le le_rfl le_rfl]
    by_contra hc
    push Not at hc
    have := hne.2 hc
    rw [h] at this
    exact Set.not_nonempty_empty this

/-- **C115.**  `Union` and `ExpandToInclude` give the smallest box with both. -/
theorem box_union (b o : Box) (hb : b.Ordered) (ho : o.Ordered) (p : Pt) :
    (b.pts ⊆ (b.union o).pts ∧ o.pts ⊆ (b.union o).pts ∧ ∀ k : Box, b.pts ⊆ k.pts → o.pts ⊆ k.pts → (b.union o).pts ⊆ k.pts) ∧
    (b.pts ⊆ (b.expandToInclude p).pts ∧ p ∈ (b.expandToInclude p).pts ∧ ∀ k : Box, b.pts ⊆ k.pts → p ∈ k.pts → (b.expandToInclude p).pts ⊆ k.pts) := by
  have hu : b.union o = ⟨(min b.lo.1 o.lo.1, min b.lo.2 o.lo.2), (max b.hi.1 o.hi.1, max b.hi.2 o.hi.2)⟩ :=
    new_of_le ((min_le_left _ _).trans (hb.1.trans (le_max_left _ _))) ((min_le_left _ _).trans (hb.2.trans (le_max_left _ _)))
  refine ⟨⟨?_, ?_, ?_⟩, ?_, ?_, ?_⟩
  · rw [hu]
    intro x hx
    rw [mem_pts] at hx ⊢
    exact ⟨⟨(min_le_left _ _).trans hx.1.1, hx.1.2.trans (le_max_left _ _)⟩, (min_le_left _ _).trans hx.2.1, hx.2.2.trans (le_max_left _ _)⟩
  · rw [hu]
    intro x hx
    rw [mem_pts] at hx ⊢
    exact ⟨⟨(min_le_right _ _).trans hx.1.1, hx.1.2.trans (le_max_right _ _)⟩, (min_le_right _ _).trans hx.2.1, hx.2.2.trans (le_max_right _ _)⟩
  · intro k h1 h2
    rw [Box.pts, Box.pts, Set.Icc_subset_Icc_iff hb] at h1
    rw [Box.pts, Box.pts, Set.Icc_subset_Icc_iff ho] at h2
    rw [hu]
    exact Set.Icc_subset_Icc ⟨le_min h1.1.1 h2.1.1, le_min h1.1.2 h2.1.2⟩ ⟨max_le h1.2.1 h2.2.1, max_le h1.2.2 h2.2.2⟩
  · exact Set.Icc_subset_Icc ⟨min_le_left _ _, min_le_left _ _⟩ ⟨le_max_left _ _, le_max_left _ _⟩
  · exact ⟨⟨min_le_right _ _, min_le_right _ _⟩, le_max_right _ _, le_max_right _ _⟩
  · intro k h1 h2
    rw [Box.pts, Box.pts, Set.Icc_subset_Icc_iff hb] at h1
    exact Set.Icc_subset_Icc ⟨le_min h1.1.1 h2.1.1, le_min h1.1.2 h2.1.2⟩ ⟨max_le h1.2.1 h2.2.1, max_le h1.2.2 h2.2.2⟩

/-- **C115.**  `Expanded` by a margin that leaves the corners in order: the corners move by the margin. -/
theorem box_expanded (b : Box) (m : ℝ) (h1 : 0 ≤ b.width + 2 * m) (h2 : 0 ≤ b.height + 2 * m) (p : Pt) :
    p ∈ (b.expanded m).pts ↔ b.lo.1 - m ≤ p.1 ∧ p.1 ≤ b.hi.1 + m ∧ b.lo.2 - m ≤ p.2 ∧ p.2 ≤ b.hi.2 + m := by
  rw [Box.width] at h1
  rw [Box.height] at h2
  rw [Box.expanded, new_of_le (by linarith) (by linarith), mem_pts, and_assoc]

/-- **C115**, disagreement.  The unit box shrunk by one on every side is again the unit box. -/
theorem box_expanded_wrong : (⟨(0, 0), (1, 1)⟩ : Box).expanded (-1) = ⟨(0, 0), (1, 1)⟩ := by
  rw [Box.expanded, Box.new, normalize_eq]
  norm_num

/-- **C115.**  `Translated` and `Scaled`. -/
theorem box_moved (b : Box) (hb : b.Ordered) (v : Pt) (f : ℝ) (p : Pt) : (p + v ∈ (b.translated v).pts ↔ p ∈ b.pts) ∧
    (f ≠ 0 → (b.center + f • (p - b.center) ∈ (b.scaled f).pts ↔ p ∈ b.pts)) := by
  have h1 := hb.1
  have h2 := hb.2
  constructor
  · rw [Box.translated, new_of_le (by linarith) (by linarith), mem_pts, mem_pts]
    simp
  · intro hf
    rw [mem_pts, mem_pts, Box.scaled, Box.fromCenterAndHalfExtents, Box.new, normalize_eq]
    simp only [Box.center, Box.halfExtents, Box.width, Box.height, Prod.fst_add, Prod.snd_add, Prod.smul_fst, Prod.smul_snd, Prod.fst_sub, Prod.snd_sub,
      smul_eq_mul]
    rcases lt_or_gt_of_ne hf with hf | hf
    · rw [min_eq_right (by nlinarith), min_eq_right (by nlinarith), max_eq_left (by nlinarith), max_eq_left (by nlinarith)]
      constructor
      · rintro ⟨⟨a1, a2⟩, a3, a4⟩
        exact ⟨⟨by nlinarith, by nlinarith⟩, by nlinarith, by nlinarith⟩
      · rintro ⟨⟨a1, a2⟩, a3, a4⟩
        exact ⟨⟨by nlinarith, by nlinarith⟩, by nlinarith, by nlinarith⟩
    · rw [min_eq_left (by nlinarith), min_eq_left (by nlinarith), max_eq_right (by nlinarith), max_eq_right (by nlinarith)]
      constructor
      · rintro ⟨⟨a1, a2⟩, a3, a4⟩
        exact ⟨⟨by nlinarith, by nlinarith⟩, by nlinarith, by nlinarith⟩
      · rintro ⟨⟨a1, a2⟩, a3, a4⟩
        exact ⟨⟨by nlinarith, by nlinarith⟩, by nlinarith, by nlinarith⟩

/-- **C115.**  `Intersects` says whether a box and a disc have a common point. -/
theorem box_intersectsCircle (b : Box) (hb : b.Ordered) (c : Circle) : ∃ r, b.intersectsCircle c = .ret r ∧ (r = true ↔ (b.pts ∩ c.disc).Nonempty) := by
  obtain ⟨x, hx, hx1, -, hx3, -⟩ := box_closest b hb c.center
  refine ⟨_, by rw [Box.intersectsCircle, hx, Outcome.bind_ret], ?_⟩
  rw [decide_eq_true_eq, dist2_eq]
  constructor
  · intro h
    exact ⟨x, hx1, h⟩
  · rintro ⟨y, hy1, hy2⟩
    exact (hx3 y hy1).trans hy2

/-- **C115.**  `Area` is the area of the box, `Diagonal` the distance of opposite corners, and the box is the convex hull of its `Corners`. -/
theorem box_area (b : Box) (hb : b.Ordered) : MeasureTheory.volume b.pts = ENNReal.ofReal b.area ∧ b.diagonal = euclid b.lo b.hi ∧
    b.diagonal = euclid (b.hi.1, b.lo.2) (b.lo.1, b.hi.2) ∧ b.perimeter = 2 * b.width + 2 * b.height ∧
    b.pts = convexHull ℝ {x | x ∈ b.corners} := by
  have h1 := hb.1
  have h2 := hb.2
  have hprod : b.pts = Set.Icc b.lo.1 b.hi.1 ×ˢ Set.Icc b.lo.2 b.hi.2 := by
    ext x; rw [mem_pts]; rfl
  refine ⟨?_, ?_, ?_, by rw [Box.perimeter]; ring, ?_⟩
  · rw [hprod, Box.area, Box.width, Box.height, ENNReal.ofReal_mul (by linarith), MeasureTheory.Measure.volume_eq_prod,
      MeasureTheory.Measure.prod_prod, Real.volume_Icc, Real.volume_Icc]
  · rw [Box.diagonal, euclid, Box.width, Box.height]; congr 1; ring
  · rw [Box.diagonal, euclid, Box.width, Box.height]; congr 1; simp only; ring
  · apply Set.Subset.antisymm
    · have e : ({x | x ∈ b.corners} : Set Pt) = {b.lo.1, b.hi.1} ×ˢ {b.lo.2, b.hi.2} := by
        ext ⟨x, y⟩
        simp only [Box.corners, List.mem_cons, List.not_mem_nil, or_false, Set.mem_setOf_eq, Set.mem_prod, Set.mem_insert_iff, Set.mem_singleton_iff,
          Prod.ext_iff]
        tauto
      rw [hprod, e, convexHull_prod, convexHull_pair, convexHull_pair, segment_eq_Icc h1, segment_eq_Icc h2]
    · refine convexHull_min ?_ (by rw [hprod]; exact (convex_Icc _ _).prod (convex_Icc _ _))
      intro x hx
      simp only [Box.corners, List.mem_cons, List.not_mem_nil, or_false, Set.mem_setOf_eq] at hx
      rw [mem_pts]
      rcases hx with rfl | rfl | rfl | rfl <;> simp [h1, h2]

/-- Two overlapping boxes meet the hypotheses. -/
example : (⟨(0, 0), (2, 2)⟩ : Box).Ordered ∧ (⟨(1, 1), (3, 3)⟩ : Box).Ordered ∧
    ((⟨(0, 0), (2, 2)⟩ : Box).pts ∩ (⟨(1, 1), (3, 3)⟩ : Box).pts).Nonempty := by
  refine ⟨⟨by norm_num, by norm_num⟩, ⟨by norm_num, by norm_num⟩, (1, 1), ?_, ?_⟩ <;> rw [mem_pts] <;> norm_num

end Verif.CompGeo.CB
