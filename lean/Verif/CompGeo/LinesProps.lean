import Verif.CompGeo.Lines
import Verif.CompGeo.HullProps
import Verif.CompGeo.ClosestProps
import Mathlib.Analysis.Convex.Segment
import Mathlib.Tactic

/-!
# C113: lines and segments in the plane
-/

set_option autoImplicit false

namespace Verif.CompGeo.Lines

/-! ## Lines -/

theorem norm2_sq (d : Pt) : norm2 d ^ 2 = d.1 ^ 2 + d.2 ^ 2 := by
  rw [norm2, Real.sq_sqrt (by nlinarith [mul_self_nonneg d.1, mul_self_nonneg d.2])]; ring

theorem norm2_ne {d : Pt} (h : d ≠ (0, 0)) : norm2 d ≠ 0 := by
  intro h0
  have := norm2_sq d
  rw [h0] at this
  exact h (Prod.ext (by nlinarith [sq_nonneg d.1, sq_nonneg d.2]) (by nlinarith [sq_nonneg d.1, sq_nonneg d.2]))

theorem unitVec_spec {d : Pt} (h : d ≠ (0, 0)) : (unitVec d).1 ^ 2 + (unitVec d).2 ^ 2 = 1 ∧ ∃ k : ℝ, 0 < k ∧ d = k • unitVec d := by
  have hn := norm2_ne h
  have hs := norm2_sq d
  have hp : 0 < norm2 d := lt_of_le_of_ne (Real.sqrt_nonneg _) hn.symm
  rw [unitVec, if_neg hn]
  refine ⟨?_, norm2 d, hp, ?_⟩
  · field_simp
    linarith
  · ext
    · simp only [Prod.smul_fst, smul_eq_mul]; field_simp
    · simp only [Prod.smul_snd, smul_eq_mul]; field_simp

/-- A line whose direction has length 1. -/
def Unit (l : Line) : Prop := l.dir.1 ^ 2 + l.dir.2 ^ 2 = 1

/-- **C113.**  The constructors: the line goes through the points given, its direction has length 1 and is that given; the line through `a` and `b`
has `a` at parameter zero and `b` at the parameter that is their distance. -/
theorem line_new (p d a b : Pt) (hd : d ≠ (0, 0)) (hab : a ≠ b) :
    Unit (Line.new p d) ∧ (Line.new p d).at 0 = p ∧ (∃ k : ℝ, 0 < k ∧ d = k • (Line.new p d).dir) ∧
    Unit (Line.through a b) ∧ (Line.through a b).at 0 = a ∧ (Line.through a b).at (euclid a b) = b := by
  obtain ⟨h1, h2⟩ := unitVec_spec hd
  have hne : ((b.1 - a.1, b.2 - a.2) : Pt) ≠ (0, 0) := by
    intro h
    rw [Prod.mk.injEq] at h
    exact hab (Prod.ext (by linarith) (by linarith))
  obtain ⟨g1, -⟩ := unitVec_spec hne
  refine ⟨h1, by simp [Line.at, Line.new], h2, g1, by simp [Line.at, Line.through], ?_⟩
  have hn := norm2_ne hne
  have e : euclid a b = norm2 (b.1 - a.1, b.2 - a.2) := by rw [euclid, norm2]; congr 1; ring
  rw [e, Line.at, Line.through, unitVec, if_neg hn]
  ext
  · simp only; field_simp; ring
  · simp only; field_simp; ring

/-- **C113.**  `ClosestPoint` is a point of the line at distance `DistanceToPoint`, and no point of the line is closer. -/
theorem line_closest (l : Line) (hl : Unit l) (p : Pt) : (∃ t, l.closest p = l.at t) ∧ euclid p (l.closest p) = l.dist p ∧ ∀ t, l.dist p ≤ euclid p (l.at t) := by
  have hl : l.dir.1 ^ 2 + l.dir.2 ^ 2 = 1 := hl
  have key : ∀ t, euclid p (l.at t) ^ 2 = l.dist p ^ 2 + (t - ((p.1 - l.point.1) * l.dir.1 + (p.2 - l.point.2) * l.dir.2)) ^ 2 := by
    intro t
    rw [euclid, Real.sq_sqrt (by positivity), Line.dist, sq_abs, Line.at]
    simp only
    linear_combination ((p.1 - l.point.1) ^ 2 + (p.2 - l.point.2) ^ 2 - t ^ 2) * (-1 : ℝ) * hl
  refine ⟨⟨_, rfl⟩, ?_, fun t => ?_⟩
  · have := key ((p.1 - l.point.1) * l.dir.1 + (p.2 - l.point.2) * l.dir.2)
    rw [sub_self] at this
    have h0 : euclid p (l.closest p) ^ 2 = l.dist p ^ 2 := by rw [Line.closest, this]; ring
    exact (pow_left_inj₀ (Real.sqrt_nonneg _) (abs_nonneg _) (by norm_num)).1 h0
  · refine (pow_le_pow_iff_left₀ (a := l.dist p) (b := euclid p (l.at t)) (abs_nonneg _) (Real.sqrt_nonneg _) (by norm_num : (2 : ℕ) ≠ 0)).1 ?_
    have := key t
    rw [this]
    nlinarith [sq_nonneg (t - ((p.1 - l.point.1) * l.dir.1 + (p.2 - l.point.2) * l.dir.2))]

/-- **C113.**  `Perpendicular` goes through the given point at a right angle; `Contains` says whether the distance is below the tolerance. -/
theorem line_perpendicular (l : Line) (hl : Unit l) (p : Pt) (eps : ℝ) : Unit (l.perpendicular p) ∧ (l.perpendicular p).at 0 = p ∧
    l.dir.1 * (l.perpendicular p).dir.1 + l.dir.2 * (l.perpendicular p).dir.2 = 0 ∧ (l.contains p eps = true ↔ l.dist p < eps) := by
  have hl' : l.dir.1 ^ 2 + l.dir.2 ^ 2 = 1 := hl
  have hne : ((-l.dir.2, l.dir.1) : Pt) ≠ (0, 0) := by
    intro h
    rw [Prod.mk.injEq] at h
    have h1 : l.dir.2 = 0 := by linarith
    rw [h1, h.2] at hl'
    norm_num at hl'
  obtain ⟨h1, k, hk, h2⟩ := unitVec_spec hne
  refine ⟨h1, by simp [Line.at, Line.new, Line.perpendicular], ?_, by simp [Line.contains]⟩
  have e1 := congrArg Prod.fst h2
  have e2 := congrArg Prod.snd h2
  simp only [Prod.smul_fst, Prod.smul_snd, smul_eq_mul] at e1 e2
  have : k * (l.dir.1 * (l.perpendicular p).dir.1 + l.dir.2 * (l.perpendicular p).dir.2) = 0 := by
    rw [Line.perpendicular, Line.new]
    simp only
    linear_combination (-l.dir.1) * e1 - l.dir.2 * e2
  rcases mul_eq_zero.1 this with h | h
  · exact absurd h hk.ne'
  · exact h

/-- **C113.**  The intersection of two lines.  If the directions are linearly independent beyond the tolerance, the point returned is on both lines at
the parameters returned, and is their only common point.  If they are parallel, `Parallel` means that there is no common point, and `Coincident` is
returned when the second line's point is within the tolerance of the first line, in particular when the lines are equal. -/
theorem line_intersection (l m : Line) (hl : Unit l) (hm : Unit m) :
    (1 / 10 ^ 10 ≤ |l.dir.1 * m.dir.2 - l.dir.2 * m.dir.1| → ∃ p t1 t2, l.intersection m = .ret (.point p t1 t2) ∧ l.at t1 = p ∧ m.at t2 = p ∧
      ∀ u1 u2, l.at u1 = m.at u2 → u1 = t1 ∧ u2 = t2) ∧
    (l.dir.1 * m.dir.2 - l.dir.2 * m.dir.1 = 0 →
      (l.dist m.point < 1 / 10 ^ 10 → l.intersection m = .ret .coincident) ∧
      (1 / 10 ^ 10 ≤ l.dist m.point → l.intersection m = .ret .parallel ∧ ∀ u1 u2, l.at u1 ≠ m.at u2)) := by
  have hl : l.dir.1 ^ 2 + l.dir.2 ^ 2 = 1 := hl
  have hm : m.dir.1 ^ 2 + m.dir.2 ^ 2 = 1 := hm
  constructor
  · intro h
    have hne : l.det m ≠ 0 := by
      intro h0
      rw [Line.det] at h0
      rw [h0, abs_zero] at h
      norm_num at h
    rw [Line.intersection, if_neg (by rw [geomEps]; exact not_lt.2 h), Interp.fdiv, if_neg hne, Interp.fdiv, if_neg hne]
    refine ⟨_, _, _, rfl, rfl, ?_, ?_⟩
    · ext
      · simp only [Line.at, Line.num]
        field_simp
        rw [Line.det]; ring
      · simp only [Line.at, Line.num]
        field_simp
        rw [Line.det]; ring
    · intro u1 u2 hu
      have e1 := congrArg Prod.fst hu
      have e2 := congrArg Prod.snd hu
      simp only [Line.at] at e1 e2
      constructor
      · rw [eq_div_iff hne, Line.det, Line.num]
        linear_combination m.dir.2 * e1 - m.dir.1 * e2
      · rw [eq_div_iff hne, Line.det, Line.num]
        linear_combination l.dir.2 * e1 - l.dir.1 * e2
  · intro h
    have h0 : |l.det m| < geomEps := by rw [Line.det, h, abs_zero, geomEps]; norm_num
    have hd : l.dist m.point = |l.num m l.dir| := rfl
    rw [Line.intersection, if_pos h0, hd]
    refine ⟨fun h1 => by rw [if_pos (by rw [geomEps]; exact h1)], fun h1 => ⟨by rw [if_neg (by rw [geomEps]; exact not_lt.2 h1)], ?_⟩⟩
    intro u1 u2 hu
    have e1 := congrArg Prod.fst hu
    have e2 := congrArg Prod.snd hu
    simp only [Line.at] at e1 e2
    have : l.num m l.dir = 0 := by
      rw [Line.num]
      linear_combination (-l.dir.2) * e1 + l.dir.1 * e2 + u2 * h
    rw [this, abs_zero] at h1
    norm_num at h1

/-- **C113.**  `Intersects` says whether `Intersection` found a point, and stores it. -/
theorem line_intersects (l m : Line) :
    (∀ p t1 t2, l.intersection m = .ret (.point p t1 t2) → l.intersects m = .ret (true, some p)) ∧
    (l.intersection m = .ret .parallel ∨ l.intersection m = .ret .coincident → l.intersects m = .ret (false, none)) := by
  refine ⟨fun p t1 t2 h => by rw [Line.intersects, h]; rfl, ?_⟩
  rintro (h | h) <;> rw [Line.intersects, h] <;> rfl

/-! ## Distance to a segment -/

theorem seg_lenSq (s : Seg) : s.lenSq = euclid s.p s.q ^ 2 := by
  rw [Seg.lenSq, ← sq, norm2_sq, euclid, Real.sq_sqrt (by positivity)]; ring

theorem euclid_comm (a b : Pt) : euclid a b = euclid b a := by rw [euclid, euclid]; congr 1; ring

theorem euclid_triangle (a b c : Pt) : euclid a c ≤ euclid a b + euclid b c := by
  have h : ∀ x y u w : ℝ, Real.sqrt ((x + u) ^ 2 + (y + w) ^ 2) ≤ Real.sqrt (x ^ 2 + y ^ 2) + Real.sqrt (u ^ 2 + w ^ 2) := by
    intro x y u w
    have h1 : 0 ≤ x ^ 2 + y ^ 2 := by positivity
    have h2 : 0 ≤ u ^ 2 + w ^ 2 := by positivity
    refine Real.sqrt_le_iff.2 ⟨by positivity, ?_⟩
    have e1 := Real.sq_sqrt h1
    have e2 := Real.sq_sqrt h2
    have h3 : x * u + y * w ≤ Real.sqrt (x ^ 2 + y ^ 2) * Real.sqrt (u ^ 2 + w ^ 2) := by
      rw [← Real.sqrt_mul h1]
      exact Real.le_sqrt_of_sq_le (by nlinarith [sq_nonneg (x * w - y * u)])
    nlinarith
  have := h (a.1 - b.1) (a.2 - b.2) (b.1 - c.1) (b.2 - c.2)
  rw [euclid, euclid, euclid]
  convert this using 3 <;> ring

theorem mem_segment (s : Seg) (x : Pt) : x ∈ segment ℝ s.p s.q ↔ ∃ t : ℝ, 0 ≤ t ∧ t ≤ 1 ∧ x = (s.p.1 + t * (s.q.1 - s.p.1), s.p.2 + t * (s.q.2 - s.p.2)) := by
  constructor
  · rintro ⟨a, b, ha, hb, hab, rfl⟩
    refine ⟨b, hb, by linarith, ?_⟩
    have : a = 1 - b := by linarith
    subst this
    ext
    · simp; ring
    · simp; ring
  · rintro ⟨t, h0, h1, rfl⟩
    refine ⟨1 - t, t, by linarith, h0, by ring, ?_⟩
    ext
    · simp; ring
    · simp; ring

/-- **C113.**  For a segment of length at least `10⁻⁵`, `ClosestPoint` is a point of the segment at distance `DistanceToPoint`, and no point of
the segment is closer. -/
theorem seg_closest (s : Seg) (hs : 1 / 10 ^ 5 ≤ euclid s.p s.q) (p : Pt) : ∃ c d, s.closest p = .ret c ∧ s.dist p = .ret d ∧
    c ∈ segment ℝ s.p s.q ∧ d = euclid p c ∧ ∀ x ∈ segment ℝ s.p s.q, d ≤ euclid p x := by
  have hlen : geomEps ≤ s.lenSq := by
    rw [seg_lenSq, geomEps]
    calc (1 : ℝ) / 10 ^ 10 = (1 / 10 ^ 5) ^ 2 := by norm_num
      _ ≤ _ := pow_le_pow_left₀ (by norm_num) hs 2
  have hpos : 0 < s.lenSq := lt_of_lt_of_le (by rw [geomEps]; norm_num) hlen
  have hL : s.lenSq = (s.q.1 - s.p.1) ^ 2 + (s.q.2 - s.p.2) ^ 2 := by rw [Seg.lenSq, ← sq, norm2_sq]
  set N := (p.1 - s.p.1) * (s.q.1 - s.p.1) + (p.2 - s.p.2) * (s.q.2 - s.p.2) with hN
  set t := max 0 (min (N / s.lenSq) 1) with ht
  have hproj : s.project p = .ret (s.p.1 + (s.q.1 - s.p.1) * t, s.p.2 + (s.q.2 - s.p.2) * t) := by
    rw [Seg.project, Interp.fdiv, if_neg hpos.ne', Outcome.bind_ret]
  have t0 : 0 ≤ t := le_max_left _ _
  have t1 : t ≤ 1 := max_le (by norm_num) (min_le_right _ _)
  refine ⟨(s.p.1 + (s.q.1 - s.p.1) * t, s.p.2 + (s.q.2 - s.p.2) * t), _, by rw [Seg.closest, if_neg (not_lt.2 hlen), hproj],
    by rw [Seg.dist, if_neg (not_lt.2 hlen), hproj, Outcome.bind_ret], ?_, dist2_eq _ _, ?_⟩
  · rw [mem_segment]
    exact ⟨t, t0, t1, by ext <;> simp [mul_comm]⟩
  · intro x hx
    rw [mem_segment] at hx
    obtain ⟨u, u0, u1, rfl⟩ := hx
    rw [dist2_eq, euclid, euclid]
    refine Real.sqrt_le_sqrt ?_
    simp only
    -- the squared distance is a convex parabola with its minimum over the interval at `t`
    have key : s.lenSq * (u - t) ^ 2 + 2 * (s.lenSq * t - N) * (u - t) =
        ((p.1 - (s.p.1 + u * (s.q.1 - s.p.1))) ^ 2 + (p.2 - (s.p.2 + u * (s.q.2 - s.p.2))) ^ 2) -
        ((p.1 - (s.p.1 + (s.q.1 - s.p.1) * t)) ^ 2 + (p.2 - (s.p.2 + (s.q.2 - s.p.2) * t)) ^ 2) := by rw [hL, hN]; ring
    have hsign : 0 ≤ (s.lenSq * t - N) * (u - t) := by
      rcases le_or_gt (N / s.lenSq) 0 with h | h
      · have : t = 0 := by rw [ht, max_eq_left ((min_le_left _ _).trans h)]
        rw [this]
        have : N ≤ 0 := by rwa [div_le_iff₀ hpos, zero_mul] at h
        nlinarith
      · rcases le_or_gt (N / s.lenSq) 1 with h' | h'
        · have : t = N / s.lenSq := by rw [ht, min_eq_left h', max_eq_right h.le]
          rw [this, mul_div_cancel₀ _ hpos.ne', sub_self, zero_mul]
        · have : t = 1 := by rw [ht, min_eq_right h'.le, max_eq_right (by norm_num)]
          rw [this]
          have : s.lenSq < N := by rwa [lt_div_iff₀ hpos, one_mul] at h'
          nlinarith
    nlinarith [mul_nonneg hpos.le (sq_nonneg (u - t))]

/-- **C113.**  For a shorter segment its start stands for the whole: the distance is off by less than `10⁻⁵`. -/
theorem seg_closest_short (s : Seg) (hs : euclid s.p s.q < 1 / 10 ^ 5) (p : Pt) : s.closest p = .ret s.p ∧ s.dist p = .ret (euclid p s.p) ∧
    ∀ x ∈ segment ℝ s.p s.q, euclid p s.p < euclid p x + 1 / 10 ^ 5 := by
  have hlen : s.lenSq < geomEps := by
    rw [seg_lenSq, geomEps]
    calc euclid s.p s.q ^ 2 < (1 / 10 ^ 5) ^ 2 := pow_lt_pow_left₀ hs (Real.sqrt_nonneg _) (by norm_num)
      _ = _ := by norm_num
  refine ⟨by rw [Seg.closest, if_pos hlen], by rw [Seg.dist, if_pos hlen, dist2_eq, euclid_comm], fun x hx => ?_⟩
  have h1 := euclid_triangle p x s.p
  have h2 : euclid x s.p ≤ euclid s.p s.q := by
    rw [mem_segment] at hx
    obtain ⟨t, t0, t1, rfl⟩ := hx
    rw [euclid, euclid]
    refine Real.sqrt_le_sqrt ?_
    simp only
    have : t ^ 2 ≤ 1 := by nlinarith
    nlinarith [mul_le_mul_of_nonneg_right this (sq_nonneg (s.q.1 - s.p.1)), mul_le_mul_of_nonneg_right this (sq_nonneg (s.q.2 - s.p.2))]
  linarith

/-- **C113.**  `PointOnSegment` runs through the segment for parameters in `[0, 1]` and refuses all others; the midpoint and the length. -/
theorem seg_at (s : Seg) : (∀ t, t < 0 ∨ 1 < t → s.at t = .exn (.mml "GeometryError")) ∧
    (∀ x, x ∈ segment ℝ s.p s.q ↔ ∃ t, 0 ≤ t ∧ t ≤ 1 ∧ s.at t = .ret x) ∧ s.at 0 = .ret s.p ∧ s.at 1 = .ret s.q ∧
    s.mid = midpoint ℝ s.p s.q ∧ s.length = euclid s.p s.q := by
  have hat : ∀ t, 0 ≤ t → t ≤ 1 → s.at t = .ret (s.p.1 + t * (s.q.1 - s.p.1), s.p.2 + t * (s.q.2 - s.p.2)) := by
    intro t h0 h1
    rw [Seg.at, if_neg (by rintro (h | h) <;> linarith)]
  refine ⟨fun t h => by rw [Seg.at, if_pos h], fun x => ?_, ?_, ?_, ?_, dist2_eq _ _⟩
  · rw [mem_segment]
    constructor
    · rintro ⟨t, h0, h1, rfl⟩
      exact ⟨t, h0, h1, hat t h0 h1⟩
    · rintro ⟨t, h0, h1, h⟩
      rw [hat t h0 h1, Outcome.ret.injEq] at h
      exact ⟨t, h0, h1, h.symm⟩
  · rw [hat 0 le_rfl (by norm_num)]; simp
  · rw [hat 1 (by norm_num) le_rfl]; simp
  · rw [midpoint_eq_smul_add, Seg.mid]
    ext
    · simp; ring
    · simp; ring

end Verif.CompGeo.Lines
